import Verif.Alloc

/-
Invariant of the allocator model and the effect of each function.
-/

namespace ZJ.Alloc

set_option linter.unusedSimpArgs false
set_option linter.unusedVariables false

/-- Two ranges of addresses have nothing in common. -/
def Disj (b c : Block) : Prop := b.1 + b.2 ≤ c.1 ∨ c.1 + c.2 ≤ b.1

theorem Disj.symm {b c : Block} (h : Disj b c) : Disj c b := Or.symm h

/-- `b` lies in `c`. -/
def Within (b c : Block) : Prop := c.1 ≤ b.1 ∧ b.1 + b.2 ≤ c.1 + c.2

theorem Disj.sub {b b' c : Block} (h : Disj b c) (hb : Within b' b) : Disj b' c := by
  unfold Disj Within at *; omega

theorem Disj.sub_right {b c c' : Block} (h : Disj b c) (hc : Within c' c) : Disj b c' :=
  (h.symm.sub hc).symm

theorem Within.trans {a b c : Block} (h : Within a b) (h' : Within b c) : Within a c := by
  unfold Within at *; omega

theorem hits_false {q k p n : Nat} : hits q k p n = false ↔ (p + n ≤ q ∨ q + k ≤ p) := by
  simp [hits]; omega

theorem Disj.hits {q k p n : Nat} (h : Disj (q, k) (p, n)) : Alloc.hits q k p n = false := by
  rw [hits_false]; unfold Disj at h; simp at h; omega

/-- Between `m` and `m'` only structs and bytes that touch one of the ranges `R`
changed. -/
structure Only (m m' : Mem) (R : List Block) : Prop where
  an : ∀ q, (∀ r ∈ R, Disj (q, 24) r) → m'.an q = m.an q
  al : ∀ q, (∀ r ∈ R, Disj (q, 16) r) → m'.al q = m.al q
  ss : ∀ q, (∀ r ∈ R, Disj (q, 24) r) → m'.ss q = m.ss q
  bytes : ∀ q, (∀ r ∈ R, Disj (q, 1) r) → m'.bytes q = m.bytes q

theorem Only.refl (m : Mem) (R : List Block) : Only m m R :=
  ⟨fun _ _ => rfl, fun _ _ => rfl, fun _ _ => rfl, fun _ _ => rfl⟩

theorem Only.trans {m m' m'' : Mem} {R : List Block} (h : Only m m' R) (h' : Only m' m'' R) :
    Only m m'' R :=
  ⟨fun q hq => (h'.an q hq).trans (h.an q hq), fun q hq => (h'.al q hq).trans (h.al q hq),
    fun q hq => (h'.ss q hq).trans (h.ss q hq), fun q hq => (h'.bytes q hq).trans (h.bytes q hq)⟩

/-- The ranges may be enlarged. -/
theorem Only.mono {m m' : Mem} {R S : List Block} (h : Only m m' R)
    (hS : ∀ r ∈ R, ∃ s ∈ S, Within r s) : Only m m' S := by
  have key : ∀ q k, (∀ s ∈ S, Disj (q, k) s) → ∀ r ∈ R, Disj (q, k) r := by
    intro q k hq r hr
    obtain ⟨s, hs, hw⟩ := hS r hr
    exact (hq s hs).sub_right hw
  exact ⟨fun q hq => h.an q (key q _ hq), fun q hq => h.al q (key q _ hq),
    fun q hq => h.ss q (key q _ hq), fun q hq => h.bytes q (key q _ hq)⟩

theorem Only.wipe (m : Mem) (p n : Nat) : Only m (m.wipe p n) [(p, n)] := by
  refine ⟨?_, ?_, ?_, ?_⟩ <;> intro q hq <;>
    simp [Mem.wipe, (hq _ (List.mem_singleton.2 rfl)).hits]

theorem inLive_of {m : Mem} {p n : Nat} {b : Block} (hb : b ∈ m.live) (hw : Within (p, n) b) :
    inLive m p n = true := by
  unfold Within at hw
  simp only [inLive, List.any_eq_true, Bool.and_eq_true, decide_eq_true_eq]
  exact ⟨b, hb, hw⟩

/-! ### Writing -/

theorem wrAN_run {m : Mem} {p : Nat} {n : ANode} {b : Block} (hp : p ≠ 0) (hb : b ∈ m.live)
    (hw : Within (p, 24) b) :
    ∃ m', wrAN m p n = .ok m' ∧ m'.live = m.live ∧ m'.calls = m.calls ∧ m'.an p = some n ∧
      Only m m' [(p, 24)] := by
  refine ⟨{ m.wipe p 24 with an := fun q => if q = p then some n else (m.wipe p 24).an q },
    ?_, ?_, ?_, ?_, ?_⟩
  · unfold wrAN
    rw [if_neg hp, if_pos (inLive_of hb hw)]
  · rfl
  · rfl
  · simp
  · have h := Only.wipe m p 24
    refine ⟨?_, h.al, h.ss, h.bytes⟩
    intro q hq
    have hne : q ≠ p := by
      have := hq _ (List.mem_singleton.2 rfl)
      unfold Disj at this; simp at this; omega
    simp only [if_neg hne]
    exact h.an q hq

theorem wrAl_run {m : Mem} {p : Nat} {n : Alc} {b : Block} (hp : p ≠ 0) (hb : b ∈ m.live)
    (hw : Within (p, 16) b) :
    ∃ m', wrAl m p n = .ok m' ∧ m'.live = m.live ∧ m'.calls = m.calls ∧ m'.al p = some n ∧
      Only m m' [(p, 16)] := by
  refine ⟨{ m.wipe p 16 with al := fun q => if q = p then some n else (m.wipe p 16).al q },
    ?_, ?_, ?_, ?_, ?_⟩
  · unfold wrAl
    rw [if_neg hp, if_pos (inLive_of hb hw)]
  · rfl
  · rfl
  · simp
  · have h := Only.wipe m p 16
    refine ⟨h.an, ?_, h.ss, h.bytes⟩
    intro q hq
    have hne : q ≠ p := by
      have := hq _ (List.mem_singleton.2 rfl)
      unfold Disj at this; simp at this; omega
    simp only [if_neg hne]
    exact h.al q hq

theorem wrStr_run {m : Mem} {p : Nat} {n : SStr} {b : Block} (hp : p ≠ 0) (hb : b ∈ m.live)
    (hw : Within (p, 24) b) :
    ∃ m', wrStr m p n = .ok m' ∧ m'.live = m.live ∧ m'.calls = m.calls ∧ m'.ss p = some n ∧
      Only m m' [(p, 24)] := by
  refine ⟨{ m.wipe p 24 with ss := fun q => if q = p then some n else (m.wipe p 24).ss q },
    ?_, ?_, ?_, ?_, ?_⟩
  · unfold wrStr
    rw [if_neg hp, if_pos (inLive_of hb hw)]
  · rfl
  · rfl
  · simp
  · have h := Only.wipe m p 24
    refine ⟨h.an, h.al, ?_, h.bytes⟩
    intro q hq
    have hne : q ≠ p := by
      have := hq _ (List.mem_singleton.2 rfl)
      unfold Disj at this; simp at this; omega
    simp only [if_neg hne]
    exact h.ss q hq

/-! ### malloc and free -/

/-- What C guarantees about `malloc`: a non-null result is aligned for every type and
is the start of a block apart from all live blocks. -/
def Sound (E : Env) : Prop :=
  ∀ k live n p, E k live n = some p → p ≠ 0 ∧ p % 16 = 0 ∧ ∀ b ∈ live, Disj (p, n) b

/-- `malloc` never fails. -/
def Plenty (E : Env) : Prop := ∀ k live n, (E k live n).isSome

/-- The live blocks are non-empty, non-null and pairwise disjoint. -/
structure Sep (live : List Block) : Prop where
  pair : live.Pairwise Disj
  pos : ∀ b ∈ live, b.1 ≠ 0 ∧ 0 < b.2
  al : ∀ b ∈ live, b.1 % 16 = 0

theorem Sep.eq {live : List Block} (h : Sep live) {b c : Block} (hb : b ∈ live) (hc : c ∈ live)
    (e : b.1 = c.1) : b = c := by
  have key : ∀ l : List Block, l.Pairwise Disj → ∀ b ∈ l, ∀ c ∈ l, b = c ∨ Disj b c := by
    intro l hl
    induction hl with
    | nil => intro b hb; cases hb
    | cons hx _ ih =>
      intro b hb c hc
      rcases List.mem_cons.1 hb with e1 | hb1
      · rcases List.mem_cons.1 hc with e2 | hc1
        · exact Or.inl (e1.trans e2.symm)
        · exact Or.inr (e1 ▸ hx _ hc1)
      · rcases List.mem_cons.1 hc with e2 | hc1
        · exact Or.inr (e2 ▸ (hx _ hb1).symm)
        · exact ih b hb1 c hc1
  rcases key live h.pair b hb c hc with e' | d
  · exact e'
  · have := (h.pos b hb).2
    have := (h.pos c hc).2
    unfold Disj at d
    omega

theorem Sep.perm {l l' : List Block} (h : Sep l) (e : l.Perm l') : Sep l' :=
  ⟨(e.pairwise_iff fun h => Disj.symm h).1 h.pair, fun b hb => h.pos b (e.mem_iff.2 hb),
    fun b hb => h.al b (e.mem_iff.2 hb)⟩

theorem Sep.cons {l : List Block} {b : Block} (h : Sep (b :: l)) : Sep l :=
  ⟨(List.pairwise_cons.1 h.pair).2, fun c hc => h.pos c (List.mem_cons_of_mem _ hc),
    fun c hc => h.al c (List.mem_cons_of_mem _ hc)⟩

theorem zjNew_run {E : Env} (hE : Sound E) {m : Mem} {n p : Nat} (hn : n < 4294967296) (h0 : 0 < n)
    (hs : Sep m.live) (he : E m.calls m.live n = some p) :
    ∃ m', zjNew E m n = (p, m') ∧ m'.live = (p, n) :: m.live ∧ Sep m'.live ∧ p ≠ 0 ∧
      (∀ b ∈ m.live, Disj (p, n) b) ∧ Only m m' [(p, n)] := by
  have hw : w32 n = n := Nat.mod_eq_of_lt hn
  obtain ⟨hp, hal, hd⟩ := hE _ _ _ _ he
  refine ⟨{ m.wipe p n with live := (p, n) :: m.live, calls := m.calls + 1 },
    ?_, ?_, ?_, hp, hd, ?_⟩
  · unfold zjNew
    rw [hw, he]
  · rfl
  · refine ⟨?_, ?_, ?_⟩
    · exact List.pairwise_cons.2 ⟨hd, hs.pair⟩
    · intro b hb
      rcases List.mem_cons.1 hb with rfl | hb
      · exact ⟨hp, h0⟩
      · exact hs.pos b hb
    · intro b hb
      rcases List.mem_cons.1 hb with rfl | hb
      · exact hal
      · exact hs.al b hb
  · have h := Only.wipe m p n
    exact ⟨h.an, h.al, h.ss, h.bytes⟩

theorem zjNew_none {E : Env} {m : Mem} {n : Nat} (hn : n < 4294967296)
    (he : E m.calls m.live n = none) : zjNew E m n = (0, { m with calls := m.calls + 1 }) := by
  have hw : w32 n = n := Nat.mod_eq_of_lt hn
  unfold zjNew
  rw [hw, he]

theorem zjFree_run {m : Mem} {b : Block} {rest : List Block} (hs : Sep m.live)
    (hl : m.live.Perm (b :: rest)) :
    ∃ m', zjFree m b.1 = .ok m' ∧ m'.live.Perm rest ∧ Sep m'.live ∧ Only m m' [b] := by
  have hb : b ∈ m.live := hl.mem_iff.2 (List.mem_cons_self ..)
  obtain ⟨hp, h0⟩ := hs.pos b hb
  have hf : m.live.find? (fun c => c.1 == b.1) = some b := by
    cases hc : m.live.find? (fun c => c.1 == b.1) with
    | none =>
      exfalso
      have := List.find?_eq_none.1 hc b hb
      simp at this
    | some c =>
      have hcm : c ∈ m.live := List.mem_of_find?_eq_some hc
      have hce := List.find?_some hc
      simp at hce
      rw [hs.eq hcm hb hce]
  have hpe : (m.live.erase b).Perm rest := by
    have := hl.erase b
    rwa [List.erase_cons_head] at this
  refine ⟨{ m.wipe b.1 b.2 with live := m.live.erase b, frees := m.frees + 1 }, ?_, hpe, ?_, ?_⟩
  · unfold zjFree
    rw [if_neg hp, hf]
  · exact (hs.perm hl).cons.perm hpe.symm
  · have h := Only.wipe m b.1 b.2
    exact ⟨h.an, h.al, h.ss, h.bytes⟩

/-! ### One allocator -/

/-- A block of memory the allocator got from `malloc`: `off` bytes, an `aNode`, and
`cap` bytes of data of which `pos` are handed out. -/
structure Chunk where
  base : Nat
  off : Nat
  cap : Nat
  pos : Nat

/-- Address of the `aNode`. -/
def Chunk.node (c : Chunk) : Nat := c.base + c.off
/-- Address of the data. -/
def Chunk.data (c : Chunk) : Nat := c.base + c.off + 24
/-- The block. -/
def Chunk.blk (c : Chunk) : Block := (c.base, c.off + 24 + c.cap)
/-- The part of the data that is handed out. -/
def Chunk.used (c : Chunk) : Block := (c.data, c.pos)
/-- The place of the `aNode`. -/
def Chunk.hdr (c : Chunk) : Block := (c.node, 24)

/-- The nodes in memory form the list `cs`; the last one points to `nxt`. -/
def Chain (an : Nat → Option ANode) : List Chunk → Nat → Prop
  | [], _ => True
  | [c], nxt => an c.node = some ⟨c.data, c.cap, c.pos, nxt⟩
  | c :: d :: r, nxt => an c.node = some ⟨c.data, c.cap, c.pos, d.node⟩ ∧ Chain an (d :: r) nxt

/-- What is known of an allocator: its address, whether it was made by the C++
constructor (then the struct is in a block of its own, made by the caller), the
chunks before the last one, the last one, and the blocks handed out. -/
structure Own where
  a : Nat
  cpp : Bool
  ini : List Chunk
  last : Chunk
  blocks : List Block

def Own.cs (o : Own) : List Chunk := o.ini ++ [o.last]

/-- Bytes requested so far. -/
def Own.req (o : Own) : Nat := (o.blocks.map (·.2)).sum

/-- Blocks from `malloc` that belong to the allocator. -/
def Own.mem (o : Own) : List Block :=
  (if o.cpp then [(o.a, 16)] else []) ++ o.cs.map Chunk.blk

/-- The places of its structs. -/
def Own.foot (o : Own) : List Block := (o.a, 16) :: o.cs.map Chunk.hdr

/-- The structs of the allocator. -/
structure Shape (m : Mem) (o : Own) : Prop where
  al : m.al o.a = some ⟨(o.cs.head?.map Chunk.node).getD 0, o.last.node⟩
  chain : Chain m.an o.cs 0

/-- Settings the code can work with. -/
class Sensible [Knobs] : Prop where
  chunk_pos : 1 ≤ chunk
  delta_gt : 2 ≤ delta
  chunk_fits : chunk + 40 < 4294967296

theorem Knobs.default_sensible : @Sensible Knobs.default := @Sensible.mk Knobs.default (by decide) (by decide) (by decide)

/-- The sizes of chunks: the first, and the size after each multiplication. -/
def rung [Knobs] (k : Nat) : Nat := chunk * delta ^ k

section
variable [Knobs]

theorem rung_zero : rung 0 = chunk := by simp [rung]

theorem rung_succ (k : Nat) : rung (k + 1) = rung k * delta := by simp [rung, Nat.pow_succ, Nat.mul_assoc]

variable [Sensible]

theorem rung_pos (k : Nat) : 1 ≤ rung k :=
  Nat.mul_pos Sensible.chunk_pos (Nat.pow_pos (Nat.lt_of_lt_of_le (by omega) Sensible.delta_gt))

theorem rung_two (k : Nat) : 2 * rung k ≤ rung (k + 1) := by
  rw [rung_succ, Nat.mul_comm 2]; exact Nat.mul_le_mul_left _ Sensible.delta_gt

theorem rung_lt {k j : Nat} (h : k < j) : 2 * rung k ≤ rung j := by
  induction j with
  | zero => omega
  | succ j ih =>
    have h2 := rung_two j
    rcases Nat.lt_or_ge k j with h1 | h1
    · have := ih h1; omega
    · obtain rfl : k = j := by omega
      exact h2

theorem rung_le {k j : Nat} (h : k ≤ j) : rung k ≤ rung j := by
  rcases Nat.lt_or_ge k j with h1 | h1
  · have := rung_lt h1; omega
  · obtain rfl : k = j := by omega
    exact Nat.le_refl _

theorem rung_inj {k j : Nat} (h : rung k = rung j) : k = j := by
  have h1 := rung_pos k
  have h2 := rung_pos j
  rcases Nat.lt_trichotomy k j with h3 | h3 | h3
  · have := rung_lt h3; omega
  · exact h3
  · have := rung_lt h3; omega

theorem rung_pow (k : Nat) : chunk * 2 ^ k ≤ rung k :=
  Nat.mul_le_mul_left _ (Nat.pow_le_pow_left Sensible.delta_gt k)

/-- At most 32 sizes fit in 32 bits. -/
theorem rung_small {k : Nat} (h : rung k < 4294967296) : k < 32 := by
  have h1 := rung_pow k
  have h2 : 1 * 2 ^ k ≤ chunk * 2 ^ k := Nat.mul_le_mul_right _ Sensible.chunk_pos
  rcases Nat.lt_or_ge k 32 with h3 | h3
  · exact h3
  · have := Nat.pow_le_pow_right (n := 2) (by omega) h3
    omega

/-- The least size from `k` on that is large enough. -/
theorem rung_above (size : Nat) : ∀ (n k : Nat), size ≤ rung k + n → ∃ j, k ≤ j ∧ size ≤ rung j ∧ (j = k ∨ rung j < delta * size)
  | 0, k, h => ⟨k, Nat.le_refl _, h, Or.inl rfl⟩
  | n + 1, k, h => by
    rcases Nat.lt_or_ge (rung k) size with h1 | h1
    · have h2 := rung_two k
      have h3 := rung_pos k
      obtain ⟨j, a, b, c⟩ := rung_above size n (k + 1) (by omega)
      refine ⟨j, by omega, b, Or.inr ?_⟩
      rcases c with rfl | c
      · rw [rung_succ, Nat.mul_comm]
        exact Nat.mul_lt_mul_of_pos_left h1 (Nat.lt_of_lt_of_le (by omega) Sensible.delta_gt)
      · exact c
    · exact ⟨k, Nat.le_refl _, h1, Or.inl rfl⟩

end

/-- `R` bytes can be requested of one allocator without leaving 32 bits: all chunk sizes
that `R` bytes can lead to fit. -/
def Room [Knobs] (R : Nat) : Prop := ∀ j, rung j < delta * R → rung j + 24 < 4294967296

theorem Room.mono [Knobs] {R R' : Nat} (h : Room R) (hr : R' ≤ R) : Room R' :=
  fun j hj => h j (Nat.lt_of_lt_of_le hj (Nat.mul_le_mul_left _ hr))

theorem Room.of_mul [Knobs] {R : Nat} (h : delta * R + 24 ≤ 4294967296) : Room R := fun j hj => by omega

theorem Room.lt [Knobs] [Sensible] {R : Nat} (h : Room R) : R < 4294967296 := by
  obtain ⟨j, _, a, b⟩ := rung_above R R 0 (by omega)
  rcases b with rfl | b
  · rw [rung_zero] at a
    have := Sensible.chunk_fits
    omega
  · have := h j b
    omega

theorem rung_default (k : Nat) : @rung Knobs.default k = 4096 * 2 ^ k := rfl

theorem rung_default_fits {k : Nat} : 4096 * 2 ^ k + 24 < 4294967296 ↔ k ≤ 19 := by
  constructor
  · intro h
    rcases Nat.lt_or_ge k 20 with h3 | h3
    · omega
    · have := Nat.pow_le_pow_right (n := 2) (by omega) h3
      omega
  · intro h
    have := Nat.pow_le_pow_right (n := 2) (by omega) h
    omega

/-- With the default settings that is 2 GiB. -/
theorem Room.default {R : Nat} (h : R ≤ 2147483648) : @Room Knobs.default R := by
  intro j hj
  have hj' : 4096 * 2 ^ j < 2 * R := hj
  refine rung_default_fits.2 ?_
  rcases Nat.lt_or_ge j 20 with h3 | h3
  · omega
  · have := Nat.pow_le_pow_right (n := 2) (by omega) h3
    omega

set_option linter.unusedSectionVars false

variable [Knobs]

/-- The blocks of the allocator. -/
structure Lay (o : Own) : Prop where
  nz : o.a ≠ 0
  first : ∀ c r, o.cs = c :: r →
    (o.cpp = false → c.base = o.a ∧ c.off = 16) ∧ (o.cpp = true → c.off = 0) ∧ ∀ d ∈ r, d.off = 0
  fill : ∀ c ∈ o.cs, c.pos ≤ c.cap
  cap : ∃ k, rung k + 24 < 4294967296 ∧ o.last.cap = rung k ∧ o.ini.length ≤ k
  sum : (o.ini.map Chunk.cap).sum ≤ o.last.cap
  half : ∀ c ∈ o.ini, 2 * c.cap ≤ o.last.cap
  small : o.last.cap ≤ chunk ∨ o.last.cap ≤ delta * o.req
  pos : o.last.pos ≤ o.req
  blocks : o.blocks.Pairwise Disj
  inside : ∀ b ∈ o.blocks, ∃ c ∈ o.cs, Within b c.used
  al : (∀ b ∈ o.blocks, b.2 % 8 = 0) → (∀ c ∈ o.cs, c.base % 16 = 0) →
    o.last.pos % 8 = 0 ∧ ∀ b ∈ o.blocks, b.1 % 8 = 0

/-- An allocator in memory. -/
structure Good (m : Mem) (o : Own) : Prop where
  shape : Shape m o
  lay : Lay o
  live : ∀ b ∈ o.mem, b ∈ m.live
  sep : o.mem.Pairwise Disj

theorem Chunk.hdr_in (c : Chunk) : Within c.hdr c.blk := by
  simp [Within, Chunk.hdr, Chunk.blk, Chunk.node]; omega

theorem Chunk.used_in {c : Chunk} (h : c.pos ≤ c.cap) : Within c.used c.blk := by
  simp [Within, Chunk.used, Chunk.blk, Chunk.data]; omega

theorem Chunk.hdr_used {c : Chunk} : Disj c.hdr c.used := by
  simp [Disj, Chunk.hdr, Chunk.used, Chunk.data, Chunk.node]

theorem Own.chunk_mem {o : Own} {c : Chunk} (h : c ∈ o.cs) : c.blk ∈ o.mem := by
  unfold Own.mem
  exact List.mem_append_right _ (List.mem_map_of_mem h)

theorem Own.last_mem (o : Own) : o.last ∈ o.cs := by simp [Own.cs]

/-- Where the struct is. -/
theorem Lay.home {o : Own} (h : Lay o) : ∃ b ∈ o.mem, Within (o.a, 16) b := by
  cases hc : o.cpp with
  | true => exact ⟨(o.a, 16), by simp [Own.mem, hc], by simp [Within]⟩
  | false =>
    cases hs : o.cs with
    | nil => simp [Own.cs] at hs
    | cons c r =>
      obtain ⟨h1, h2⟩ := (h.first c r hs).1 hc
      refine ⟨c.blk, Own.chunk_mem (by rw [hs]; exact List.mem_cons_self ..), ?_⟩
      simp [Within, Chunk.blk, h1, h2]; omega

/-- The structs are in the blocks. -/
theorem Lay.foot_in {o : Own} (h : Lay o) : ∀ f ∈ o.foot, ∃ b ∈ o.mem, Within f b := by
  intro f hf
  rcases List.mem_cons.1 hf with rfl | hf
  · exact h.home
  · obtain ⟨c, hc, rfl⟩ := List.mem_map.1 hf
    exact ⟨c.blk, Own.chunk_mem hc, c.hdr_in⟩

theorem Chain.congr {an an' : Nat → Option ANode} : ∀ {cs : List Chunk} {nxt : Nat},
    Chain an cs nxt → (∀ c ∈ cs, an' c.node = an c.node) → Chain an' cs nxt
  | [], _, _, _ => trivial
  | [c], _, h, e => by
    show an' c.node = _
    rw [e c (List.mem_cons_self ..)]; exact h
  | c :: d :: r, _, h, e =>
    ⟨(e c (List.mem_cons_self ..)).trans h.1,
      Chain.congr h.2 fun x hx => e x (List.mem_cons_of_mem _ hx)⟩

/-- The structs survive changes elsewhere. -/
theorem Shape.frame {m m' : Mem} {o : Own} {R : List Block} (h : Shape m o) (hO : Only m m' R)
    (hd : ∀ f ∈ o.foot, ∀ r ∈ R, Disj f r) : Shape m' o := by
  refine ⟨?_, h.chain.congr ?_⟩
  · rw [hO.al _ (hd _ (List.mem_cons_self ..))]; exact h.al
  · intro c hc
    exact hO.an _ (hd _ (List.mem_cons_of_mem _ (List.mem_map_of_mem hc)))

theorem rdAl_some {m : Mem} {p : Nat} {x : Alc} (hp : p ≠ 0) (h : m.al p = some x) :
    rdAl m p = .ok x := by
  unfold rdAl; rw [if_neg hp, h]

theorem rdAN_some {m : Mem} {p : Nat} {x : ANode} (hp : p ≠ 0) (h : m.an p = some x) :
    rdAN m p = .ok x := by
  unfold rdAN; rw [if_neg hp, h]

theorem rdStr_some {m : Mem} {p : Nat} {x : SStr} (hp : p ≠ 0) (h : m.ss p = some x) :
    rdStr m p = .ok x := by
  unfold rdStr; rw [if_neg hp, h]

theorem Chain.last {an : Nat → Option ANode} : ∀ {cs : List Chunk} {c : Chunk} {nxt : Nat},
    Chain an (cs ++ [c]) nxt → an c.node = some ⟨c.data, c.cap, c.pos, nxt⟩
  | [], _, _, h => h
  | [d], _, _, h => h.2
  | d :: e :: r, c, nxt, h => Chain.last (cs := e :: r) h.2

/-- A new last node. -/
theorem Chain.snoc {an an' : Nat → Option ANode} {c c' : Chunk} {nxt : Nat} (hn : c'.node = c.node)
    (hc : an' c.node = some ⟨c'.data, c'.cap, c'.pos, nxt⟩) : ∀ {cs : List Chunk} {old : Nat},
    Chain an (cs ++ [c]) old → (∀ d ∈ cs, an' d.node = an d.node) → Chain an' (cs ++ [c']) nxt
  | [], _, _, _ => by
    show an' c'.node = _
    rw [hn]; exact hc
  | [d], _, h, e => by
    refine ⟨?_, ?_⟩
    · rw [e d (List.mem_cons_self ..), hn]; exact h.1
    · show an' c'.node = _
      rw [hn]; exact hc
  | d :: x :: r, _, h, e =>
    ⟨(e d (List.mem_cons_self ..)).trans h.1,
      Chain.snoc hn hc (cs := x :: r) h.2 fun y hy => e y (List.mem_cons_of_mem _ hy)⟩

theorem Chain.append {an : Nat → Option ANode} {d : Chunk} {nxt : Nat} : ∀ {cs : List Chunk}
    {c : Chunk}, Chain an (cs ++ [c]) d.node → Chain an [d] nxt → Chain an (cs ++ [c] ++ [d]) nxt
  | [], _, h, hd => ⟨h, hd⟩
  | [x], _, h, hd => ⟨h.1, h.2, hd⟩
  | x :: y :: r, c, h, hd => ⟨h.1, Chain.append (cs := y :: r) h.2 hd⟩

/-! ### The growth loop -/

theorem growTo_run [Sensible] {size J : Nat} (hJ : rung J + 24 < 4294967296) (hs : size ≤ rung J) :
    ∀ (fuel k : Nat), k ≤ J → J - k < fuel →
    ∃ j, k ≤ j ∧ j ≤ J ∧ growTo fuel (rung k) size = .ok (rung j) ∧
      size ≤ rung j ∧ (j = k ∨ rung j < delta * size)
  | 0, k, _, h => by omega
  | fuel + 1, k, hk, h => by
    unfold growTo
    by_cases hb : size > rung k
    · rw [if_pos hb]
      have hk' : k < J := by
        rcases Nat.lt_or_ge k J with h | h
        · exact h
        · obtain rfl : k = J := by omega
          omega
      have hw : w32 (rung k * delta) = rung (k + 1) := by
        have := rung_le (show k + 1 ≤ J from hk')
        rw [← rung_succ]
        unfold w32
        rw [Nat.mod_eq_of_lt]; omega
      rw [hw]
      obtain ⟨j, h1, h2, h3, h4, h5⟩ := growTo_run hJ hs fuel (k + 1) hk' (by omega)
      refine ⟨j, by omega, h2, h3, h4, ?_⟩
      rcases h5 with rfl | h5
      · right
        rw [rung_succ, Nat.mul_comm]
        exact Nat.mul_lt_mul_of_pos_left hb (Nat.lt_of_lt_of_le (by omega) Sensible.delta_gt)
      · exact Or.inr h5
    · rw [if_neg hb]
      exact ⟨k, Nat.le_refl _, hk, rfl, by omega, Or.inl rfl⟩

/-! ### zj_allocatorAlloc -/

theorem Good.apart {m : Mem} {o : Own} (h : Good m o) {c d : Chunk} {l r : List Chunk}
    (e : o.cs = l ++ c :: r) (hd : d ∈ l ∨ d ∈ r) : Disj c.blk d.blk := by
  have hp := h.sep
  unfold Own.mem at hp
  have hp := (List.pairwise_append.1 hp).2.1
  rw [e, List.map_append, List.map_cons] at hp
  have h2 := List.pairwise_append.1 hp
  rcases hd with hd | hd
  · exact (h2.2.2 _ (List.mem_map_of_mem hd) _ (List.mem_cons_self ..)).symm
  · exact (List.pairwise_cons.1 h2.2.1).1 _ (List.mem_map_of_mem hd)

/-- The struct is apart from everything else. -/
theorem Good.struct_apart {m : Mem} {o : Own} (h : Good m o) {c : Chunk} (hc : c ∈ o.cs) :
    Disj (o.a, 16) (c.node, 24 + c.cap) := by
  have hw : Within (c.node, 24 + c.cap) c.blk := by
    simp [Within, Chunk.blk, Chunk.node]; omega
  cases hcpp : o.cpp with
  | true =>
    have hp := h.sep
    unfold Own.mem at hp
    rw [hcpp] at hp
    simp only [if_true, List.singleton_append, List.pairwise_cons] at hp
    exact (hp.1 _ (List.mem_map_of_mem hc)).sub_right hw
  | false =>
    cases hs : o.cs with
    | nil => simp [Own.cs] at hs
    | cons x r =>
      obtain ⟨h1, h2⟩ := (h.lay.first x r hs).1 hcpp
      rw [hs] at hc
      rcases List.mem_cons.1 hc with rfl | hc
      · simp [Disj, Chunk.node, h1, h2]
      · have := h.apart (l := []) hs (Or.inr hc)
        refine (this.sub ?_).sub_right hw
        simp [Within, Chunk.blk, h1, h2]; omega

/-- After a request that fits. -/
def Own.take (o : Own) (size : Nat) : Own :=
  { o with last := { o.last with pos := o.last.pos + size }
           blocks := (o.last.data + o.last.pos, size) :: o.blocks }

/-- After a request served from a new chunk. -/
def Own.grow (o : Own) (p s size : Nat) : Own :=
  { o with ini := o.ini ++ [o.last], last := ⟨p, 0, s, size⟩, blocks := (p + 24, size) :: o.blocks }

theorem Own.mem_take (o : Own) (size : Nat) : (o.take size).mem = o.mem := by
  simp [Own.mem, Own.take, Own.cs, Chunk.blk]; rfl

theorem Own.mem_grow (o : Own) (p s size : Nat) : (o.grow p s size).mem = o.mem ++ [(p, 24 + s)] := by
  simp [Own.mem, Own.grow, Own.cs, Chunk.blk]; rfl

theorem Own.head_app (o : Own) (l : List Chunk) :
    (o.ini ++ [o.last] ++ l).head? = (o.ini ++ [o.last]).head? := by
  cases o.ini <;> simp

theorem Lay.off {o : Own} (h : Lay o) : ∀ c ∈ o.cs, c.off % 8 = 0 := by
  intro c hc
  cases hs : o.cs with
  | nil => rw [hs] at hc; cases hc
  | cons x r =>
    obtain ⟨h1, h2, h3⟩ := h.first x r hs
    rw [hs] at hc
    rcases List.mem_cons.1 hc with rfl | hc
    · cases hcpp : o.cpp with
      | true => rw [h2 hcpp]
      | false => rw [(h1 hcpp).2]
    · rw [h3 c hc]

theorem Lay.take {o : Own} {size : Nat} (h : Lay o) (hf : o.last.pos + size ≤ o.last.cap)
    (hs : o.mem.Pairwise Disj) : Lay (o.take size) := by
  have hin : ∀ c ∈ o.ini, c ∈ (o.take size).cs := fun c hc => by simp [Own.cs, Own.take, hc]
  refine ⟨h.nz, ?_, ?_, h.cap, h.sum, h.half, ?_, ?_, ?_, ?_, ?_⟩
  · intro c r e
    cases hi : o.ini with
    | nil =>
      have h1 := h.first o.last [] (by simp [Own.cs, hi])
      simp only [Own.cs, Own.take, hi, List.nil_append, List.cons.injEq] at e
      obtain ⟨rfl, rfl⟩ := e
      exact h1
    | cons x t =>
      have h1 := h.first x (t ++ [o.last]) (by simp [Own.cs, hi])
      simp only [Own.cs, Own.take, hi, List.cons_append, List.cons.injEq] at e
      obtain ⟨rfl, rfl⟩ := e
      refine ⟨h1.1, h1.2.1, ?_⟩
      intro d hd
      rcases List.mem_append.1 hd with hd | hd
      · exact h1.2.2 d (List.mem_append_left _ hd)
      · rw [List.mem_singleton.1 hd]
        exact h1.2.2 o.last (List.mem_append_right _ (List.mem_singleton.2 rfl))
  · intro c hc
    rcases List.mem_append.1 hc with hc | hc
    · exact h.fill c (List.mem_append_left _ hc)
    · rw [List.mem_singleton.1 hc]; exact hf
  · rcases h.small with h1 | h1
    · exact Or.inl h1
    · right
      simp only [Own.take, Own.req, List.map_cons, List.sum_cons] at h1 ⊢
      exact Nat.le_trans h1 (Nat.mul_le_mul_left _ (by omega))
  · have := h.pos
    simp only [Own.take, Own.req, List.map_cons, List.sum_cons] at this ⊢
    omega
  · refine List.pairwise_cons.2 ⟨?_, h.blocks⟩
    intro b hb
    obtain ⟨c, hc, hw⟩ := h.inside b hb
    rcases List.mem_append.1 hc with hc | hc
    · have hp := (List.pairwise_append.1 hs).2.1
      rw [Own.cs, List.map_append] at hp
      have hd := (List.pairwise_append.1 hp).2.2 _ (List.mem_map_of_mem hc) _
        (List.mem_map_of_mem (List.mem_singleton.2 rfl))
      refine ((hd.sub (hw.trans (Chunk.used_in (h.fill c (List.mem_append_left _ hc))))).sub_right ?_).symm
      simp [Within, Chunk.blk, Chunk.data]; omega
    · rw [List.mem_singleton.1 hc] at hw
      simp only [Within, Chunk.used, Disj] at hw ⊢
      omega
  · intro b hb
    rcases List.mem_cons.1 hb with rfl | hb
    · refine ⟨(o.take size).last, Own.last_mem _, ?_⟩
      simp [Within, Chunk.used, Own.take, Chunk.data]; omega
    · obtain ⟨c, hc, hw⟩ := h.inside b hb
      rcases List.mem_append.1 hc with hc | hc
      · exact ⟨c, hin c hc, hw⟩
      · rw [List.mem_singleton.1 hc] at hw
        refine ⟨(o.take size).last, Own.last_mem _, hw.trans ?_⟩
        simp [Within, Chunk.used, Own.take, Chunk.data]
  · intro hb hc
    have hsz : size % 8 = 0 := hb _ (List.mem_cons_self ..)
    have hlb : o.last.base % 16 = 0 := hc (o.take size).last (Own.last_mem (o.take size))
    obtain ⟨h1, h2⟩ := h.al (fun b hbm => hb b (List.mem_cons_of_mem _ hbm)) (by
      intro c hcm
      rcases List.mem_append.1 hcm with hcm | hcm
      · exact hc c (hin c hcm)
      · rw [List.mem_singleton.1 hcm]; exact hlb)
    have hoff := h.off o.last o.last_mem
    refine ⟨?_, ?_⟩
    · show (o.last.pos + size) % 8 = 0
      omega
    · intro b hbm
      rcases List.mem_cons.1 hbm with rfl | hbm
      · simp only [Chunk.data]
        omega
      · exact h2 b hbm

theorem Lay.grow [Sensible] {o : Own} {p j k size : Nat} (h : Lay o) (hk : o.last.cap = rung k)
    (hkj : k < j) (hj : rung j + 24 < 4294967296) (hsz : size ≤ rung j)
    (hsm : j = k + 1 ∨ rung j < delta * size) (hf : o.last.cap < o.last.pos + size)
    (hd : ∀ b ∈ o.mem, Disj (p, 24 + rung j) b) : Lay (o.grow p (rung j) size) := by
  have hpow : 2 * rung k ≤ rung j := rung_lt hkj
  refine ⟨h.nz, ?_, ?_, ?_, ?_, ?_, ?_, ?_, ?_, ?_, ?_⟩
  · intro c r e
    have : ∃ x t, o.cs = x :: t := by
      cases hs : o.cs with
      | nil => simp [Own.cs] at hs
      | cons x t => exact ⟨x, t, rfl⟩
    obtain ⟨x, t, hs⟩ := this
    have h1 := h.first x t hs
    have e' : o.cs ++ [⟨p, 0, rung j, size⟩] = c :: r := e
    rw [hs, List.cons_append, List.cons.injEq] at e'
    obtain ⟨rfl, rfl⟩ := e'
    refine ⟨h1.1, h1.2.1, ?_⟩
    intro d hd
    rcases List.mem_append.1 hd with hd | hd
    · exact h1.2.2 d hd
    · rw [List.mem_singleton.1 hd]
  · intro c hc
    rcases List.mem_append.1 hc with hc | hc
    · exact h.fill c hc
    · rw [List.mem_singleton.1 hc]; exact hsz
  · refine ⟨j, hj, rfl, ?_⟩
    obtain ⟨k', h1, h2, h3⟩ := h.cap
    have : k' = k := rung_inj (h2.symm.trans hk)
    simp only [Own.grow, List.length_append, List.length_singleton]
    omega
  · have := h.sum
    simp only [Own.grow, List.map_append, List.sum_append, List.map_cons, List.map_nil,
      List.sum_cons, List.sum_nil]
    omega
  · intro c hc
    show 2 * c.cap ≤ rung j
    rcases List.mem_append.1 hc with hc | hc
    · have := h.half c hc
      omega
    · rw [List.mem_singleton.1 hc]
      omega
  · right
    have hp := h.pos
    simp only [Own.grow, Own.req, List.map_cons, List.sum_cons] at hp ⊢
    rcases hsm with rfl | hsm
    · rw [rung_succ, ← hk, Nat.mul_comm]
      exact Nat.mul_le_mul_left _ (by omega)
    · exact Nat.le_trans (Nat.le_of_lt hsm) (Nat.mul_le_mul_left _ (by omega))
  · simp only [Own.grow, Own.req, List.map_cons, List.sum_cons]; omega
  · refine List.pairwise_cons.2 ⟨?_, h.blocks⟩
    intro b hb
    obtain ⟨c, hc, hw⟩ := h.inside b hb
    refine ((hd _ (Own.chunk_mem hc)).sub ?_).sub_right (hw.trans (Chunk.used_in (h.fill c hc)))
    simp [Within]; omega
  · intro b hb
    rcases List.mem_cons.1 hb with rfl | hb
    · exact ⟨_, Own.last_mem _, by simp [Within, Chunk.used, Own.grow, Chunk.data]⟩
    · obtain ⟨c, hc, hw⟩ := h.inside b hb
      exact ⟨c, List.mem_append_left _ hc, hw⟩
  · intro hb hc
    have hsz : size % 8 = 0 := hb _ (List.mem_cons_self ..)
    have hlb : p % 16 = 0 := hc _ (Own.last_mem (o.grow p (rung j) size))
    obtain ⟨h1, h2⟩ := h.al (fun b hbm => hb b (List.mem_cons_of_mem _ hbm))
      (fun c hcm => hc c (List.mem_append_left _ hcm))
    refine ⟨hsz, ?_⟩
    intro b hbm
    rcases List.mem_cons.1 hbm with rfl | hbm
    · show (p + 24) % 8 = 0
      omega
    · exact h2 b hbm

theorem Good.last_apart {m : Mem} {o : Own} (h : Good m o) {c : Chunk} (hc : c ∈ o.ini) :
    Disj o.last.blk c.blk := h.apart (l := o.ini) (r := []) rfl (Or.inl hc)

/-- Rewriting the last node. -/
theorem Good.node_nz {m : Mem} {o : Own} (h : Good m o) (hs : Sep m.live) {c : Chunk}
    (hc : c ∈ o.cs) : c.node ≠ 0 := by
  have := (hs.pos _ (h.live _ (Own.chunk_mem hc))).1
  simp [Chunk.blk, Chunk.node] at this ⊢
  omega

theorem alloc_fit {E : Env} {m : Mem} {o : Own} {fuel size : Nat} (h : Good m o)
    (hs : Sep m.live) (hf : o.last.pos + size ≤ o.last.cap) :
    ∃ m', alloc E fuel m o.a size = .ok (o.last.data + o.last.pos, m') ∧ m'.live = m.live ∧
      Good m' (o.take size) ∧ Only m m' [o.last.hdr] := by
  obtain ⟨k, hk, hcap, hlen⟩ := h.lay.cap
  have hw : w32 (o.last.pos + size) = o.last.pos + size := by
    unfold w32; rw [Nat.mod_eq_of_lt]; omega
  have hl := h.shape.chain.last
  have hnz := h.node_nz hs o.last_mem
  obtain ⟨m', e1, e2, e3, e4, e5⟩ := wrAN_run (m := m) (p := o.last.node)
    (n := ⟨o.last.data, o.last.cap, o.last.pos + size, 0⟩) hnz (h.live _ (Own.chunk_mem o.last_mem))
    o.last.hdr_in
  refine ⟨m', ?_, e2, ?_, e5⟩
  · unfold alloc
    rw [rdAl_some h.lay.nz h.shape.al]
    simp only [Res.ok_bind]
    rw [rdAN_some hnz hl]
    simp only [Res.ok_bind, hw, if_neg (show ¬ o.last.pos + size > o.last.cap by omega), Res.pure_eq]
    rw [rdAN_some hnz hl]
    simp only [Res.ok_bind, hw, e1]
  · refine ⟨⟨?_, ?_⟩, h.lay.take hf h.sep, ?_, ?_⟩
    · have : (o.take size).a = o.a := rfl
      rw [this, e5.al, h.shape.al]
      · cases hi : o.ini <;> simp [Own.cs, Own.take, hi, Chunk.node]
      · intro r hr
        rw [List.mem_singleton.1 hr]
        refine (h.struct_apart o.last_mem).sub_right ?_
        simp [Within, Chunk.hdr]
    · refine Chain.snoc (c := o.last) (c' := (o.take size).last) rfl ?_ h.shape.chain ?_
      · rw [e4]; simp [Own.take, Chunk.data]
      · intro d hd
        refine e5.an _ fun r hr => ?_
        rw [List.mem_singleton.1 hr]
        exact (((h.last_apart hd).sub o.last.hdr_in).sub_right d.hdr_in).symm
    · rw [Own.mem_take, e2]; exact h.live
    · rw [Own.mem_take]; exact h.sep

theorem Only.cast {m m' m0 m0' : Mem} {R : List Block} (h : Only m m' R)
    (e1 : m.an = m0.an) (e2 : m.al = m0.al) (e3 : m.ss = m0.ss) (e4 : m.bytes = m0.bytes) :
    Only m0 m' R :=
  ⟨fun q hq => by rw [← e1]; exact h.an q hq, fun q hq => by rw [← e2]; exact h.al q hq,
    fun q hq => by rw [← e3]; exact h.ss q hq, fun q hq => by rw [← e4]; exact h.bytes q hq⟩

/-- The request can be served without leaving 32 bits: it fits in the last chunk, or one of
the larger sizes is large enough for it. -/
def Own.serves (o : Own) (size : Nat) : Prop :=
  o.last.pos + size < 4294967296 ∧
    (o.last.pos + size ≤ o.last.cap ∨ ∃ j, o.last.cap < rung j ∧ size ≤ rung j ∧ rung j + 24 < 4294967296)

/-- Served as long as there is room for the sum of all requests. -/
theorem Lay.serves [Sensible] {o : Own} {size : Nat} (h : Lay o) (hb : Room (o.req + size)) :
    o.serves size := by
  obtain ⟨k, hk, hcap, hlen⟩ := h.cap
  have hpos := h.pos
  have hlt := hb.lt
  refine ⟨by omega, ?_⟩
  rcases Nat.lt_or_ge o.last.cap (o.last.pos + size) with hf | hf
  · right
    obtain ⟨j, a, b, c⟩ := rung_above size size (k + 1) (by omega)
    have hj := rung_lt (show k < j from a)
    have hp := rung_pos k
    refine ⟨j, by omega, b, hb j ?_⟩
    rcases c with rfl | c
    · rw [rung_succ, ← hcap, Nat.mul_comm]
      exact Nat.mul_lt_mul_of_pos_left (by omega) (Nat.lt_of_lt_of_le (by omega) Sensible.delta_gt)
    · exact Nat.lt_of_lt_of_le c (Nat.mul_le_mul_left _ (by omega))
  · exact Or.inl hf

/-- The size of the next chunk. -/
theorem grow_size [Sensible] {m : Mem} {o : Own} {fuel size : Nat} (h : Good m o) (hfuel : 33 ≤ fuel)
    (hb : o.serves size) (hf : o.last.cap < o.last.pos + size) :
    ∃ k j, o.last.cap = rung k ∧ k < j ∧ rung j + 24 < 4294967296 ∧
      growTo fuel (w32 (o.last.cap * delta)) size = .ok (rung j) ∧ size ≤ rung j ∧
      (j = k + 1 ∨ rung j < delta * size) := by
  obtain ⟨k, hk, hcap, hlen⟩ := h.lay.cap
  rcases hb.2 with hb | ⟨J, h1, h2, h3⟩
  · omega
  have hk' : k < J := by
    rcases Nat.lt_or_ge k J with h | h
    · exact h
    · have := rung_le h; omega
  have hw : w32 (o.last.cap * delta) = rung (k + 1) := by
    have := rung_le (show k + 1 ≤ J from hk')
    rw [hcap, ← rung_succ]
    unfold w32; rw [Nat.mod_eq_of_lt]; omega
  have hJ := rung_small (k := J) (by omega)
  obtain ⟨j, g1, g2, g3, g4, g5⟩ := growTo_run (size := size) h3 h2 fuel (k + 1) hk' (by omega)
  have := rung_le g2
  exact ⟨k, j, hcap, g1, by omega, by rw [hw]; exact g3, g4, g5⟩

theorem alloc_grow [Sensible] {E : Env} (hE : Sound E) {m : Mem} {o : Own} {fuel size k j p : Nat}
    (h : Good m o) (hs : Sep m.live) (hcap : o.last.cap = rung k) (hkj : k < j) (hj : rung j + 24 < 4294967296)
    (hg : growTo fuel (w32 (o.last.cap * delta)) size = .ok (rung j)) (hsz : size ≤ rung j)
    (hsm : j = k + 1 ∨ rung j < delta * size) (hf : o.last.cap < o.last.pos + size)
    (hb : o.serves size) (he : E m.calls m.live (24 + rung j) = some p) :
    ∃ m', alloc E fuel m o.a size = .ok (p + 24, m') ∧
      m'.live = (p, 24 + rung j) :: m.live ∧ Sep m'.live ∧
      (∀ b ∈ m.live, Disj (p, 24 + rung j) b) ∧
      Good m' (o.grow p (rung j) size) ∧ Only m m' ((p, 24 + rung j) :: o.foot) := by
  have hpos := h.lay.fill _ o.last_mem
  have hsz' := hb.1
  have hS := hj
  revert hg hsz hsm he hS
  generalize hSe : rung j = S
  intro hg hsz hsm he hS
  have hw : w32 (o.last.pos + size) = o.last.pos + size := by
    unfold w32; rw [Nat.mod_eq_of_lt]; omega
  have hw2 : w32 (0 + size) = size := by
    unfold w32; rw [Nat.mod_eq_of_lt] <;> omega
  have hl := h.shape.chain.last
  have hnz := h.node_nz hs o.last_mem
  obtain ⟨m1, a1, a2, a3, a4, a5, a6⟩ := zjNew_run hE (n := 24 + S) (by omega) (by omega) hs he
  have hin : Within (p, 24) (p, 24 + S) := by simp [Within]
  obtain ⟨m2, b1, b2, b3, b4, b5⟩ := wrAN_run (m := m1) (p := p) (n := ⟨p + 24, S, 0, 0⟩) a4
    (b := (p, 24 + S)) (by rw [a2]; exact List.mem_cons_self ..) hin
  have hfd : ∀ f ∈ o.foot, Disj f (p, 24 + S) := by
    intro f hf
    obtain ⟨b, hb, hw⟩ := h.lay.foot_in f hf
    exact ((a5 b (h.live b hb)).sub_right hw).symm
  have hO2 : Only m m2 [(p, 24 + S)] := a6.trans (b5.mono (by
    intro r hr; rw [List.mem_singleton.1 hr]; exact ⟨_, List.mem_singleton.2 rfl, hin⟩))
  have hsh2 : Shape m2 o := h.shape.frame hO2 (fun f hf r hr => by
    rw [List.mem_singleton.1 hr]; exact hfd f hf)
  have hl2 := hsh2.chain.last
  have hlive2 : ∀ b ∈ o.mem, b ∈ m2.live := fun b hb => by
    rw [b2, a2]; exact List.mem_cons_of_mem _ (h.live b hb)
  obtain ⟨m3, c1, c2, c3, c4, c5⟩ := wrAN_run (m := m2) (p := o.last.node)
    (n := ⟨o.last.data, o.last.cap, o.last.pos, p⟩) hnz (hlive2 _ (Own.chunk_mem o.last_mem))
    o.last.hdr_in
  obtain ⟨hb0, hbm, hbw⟩ := h.lay.home
  obtain ⟨m4, d1, d2, d3, d4, d5⟩ := wrAl_run (m := m3) (p := o.a)
    (n := ⟨(o.cs.head?.map Chunk.node).getD 0, p⟩) h.lay.nz (b := hb0)
    (by rw [c2]; exact hlive2 _ hbm) hbw
  have hap : Disj (o.a, 16) (p, 24) := (hfd _ (List.mem_cons_self ..)).sub_right hin
  have hlp : Disj o.last.hdr (p, 24) :=
    (hfd _ (List.mem_cons_of_mem _ (List.mem_map_of_mem o.last_mem))).sub_right hin
  have han4 : m4.an p = some ⟨p + 24, S, 0, 0⟩ := by
    rw [d5.an, c5.an, b4]
    · intro r hr; rw [List.mem_singleton.1 hr]; exact hlp.symm
    · intro r hr; rw [List.mem_singleton.1 hr]; exact hap.symm
  obtain ⟨m5, f1, f2, f3, f4, f5⟩ := wrAN_run (m := m4) (p := p) (n := ⟨p + 24, S, size, 0⟩) a4
    (b := (p, 24 + S)) (by rw [d2, c2, b2, a2]; exact List.mem_cons_self ..) hin
  have hlive5 : m5.live = (p, 24 + S) :: m.live := by rw [f2, d2, c2, b2, a2]
  have hOnly : Only m m5 ((p, 24 + S) :: o.foot) := by
    refine (hO2.mono ?_).trans ((c5.mono ?_).trans ((d5.mono ?_).trans (f5.mono ?_))) <;>
      intro r hr <;> rw [List.mem_singleton.1 hr]
    · exact ⟨_, List.mem_cons_self .., by simp [Within]⟩
    · exact ⟨o.last.hdr, List.mem_cons_of_mem _ (List.mem_cons_of_mem _
        (List.mem_map_of_mem o.last_mem)), by simp [Within, Chunk.hdr]⟩
    · exact ⟨_, List.mem_cons_of_mem _ (List.mem_cons_self ..), by simp [Within]⟩
    · exact ⟨_, List.mem_cons_self .., hin⟩
  have hsa : ∀ c ∈ o.cs, Disj (o.a, 16) c.hdr := fun c hc =>
    (h.struct_apart hc).sub_right (by simp [Within, Chunk.hdr])
  refine ⟨m5, ?_, hlive5, ?_, a5, ?_, hOnly⟩
  · have hac : appendChild E m o.a S = .ok m4 := by
      unfold appendChild
      rw [a1]
      simp only
      rw [b1]
      simp only [Res.ok_bind]
      rw [rdAl_some h.lay.nz hsh2.al]
      simp only [Res.ok_bind]
      rw [rdAN_some hnz hl2]
      simp only [Res.ok_bind]
      rw [c1]
      simp only [Res.ok_bind]
      rw [d1]
    unfold alloc
    rw [rdAl_some h.lay.nz h.shape.al]
    simp only [Res.ok_bind]
    rw [rdAN_some hnz hl]
    simp only [Res.ok_bind, hw, if_pos (show o.last.pos + size > o.last.cap by omega), Res.pure_eq]
    rw [hg]
    simp only [Res.ok_bind]
    rw [hac]
    simp only [Res.ok_bind]
    rw [rdAl_some h.lay.nz d4]
    simp only [Res.ok_bind]
    rw [rdAN_some a4 han4]
    simp only [Res.ok_bind, hw2]
    rw [f1]
    simp
  · rw [f2, d2, c2, b2]; exact a3
  · have hmem : ∀ b ∈ o.mem, Disj (p, 24 + S) b := fun b hb => a5 b (h.live b hb)
    refine ⟨⟨?_, ?_⟩, ?_, ?_, ?_⟩
    · have ha : (o.grow p S size).a = o.a := rfl
      rw [ha, f5.al, d4]
      · simp only [Own.grow, Own.cs]
        rw [Own.head_app]
        rfl
      · intro r hr; rw [List.mem_singleton.1 hr]; exact hap
    · show Chain m5.an (o.ini ++ [o.last] ++ [⟨p, 0, S, size⟩]) 0
      refine Chain.append ?_ ?_
      · refine Chain.snoc (c := o.last) rfl ?_ hsh2.chain ?_
        · rw [f5.an, d5.an, c4]
          · rfl
          · intro r hr; rw [List.mem_singleton.1 hr]; exact (hsa _ o.last_mem).symm
          · intro r hr; rw [List.mem_singleton.1 hr]; exact hlp
        · intro d hd
          have hdc : d ∈ o.cs := List.mem_append_left _ hd
          rw [f5.an, d5.an, c5.an]
          · intro r hr; rw [List.mem_singleton.1 hr]
            exact (((h.last_apart hd).sub o.last.hdr_in).sub_right d.hdr_in).symm
          · intro r hr; rw [List.mem_singleton.1 hr]; exact (hsa _ hdc).symm
          · intro r hr; rw [List.mem_singleton.1 hr]
            exact (hfd _ (List.mem_cons_of_mem _ (List.mem_map_of_mem hdc))).sub_right hin
      · exact f4
    · have := h.lay.grow (p := p) (size := size) hcap hkj hj (by omega) (by rw [hSe]; exact hsm) hf
        (by rw [hSe]; exact hmem)
      rwa [hSe] at this
    · rw [Own.mem_grow, hlive5]
      intro b hb
      rcases List.mem_append.1 hb with hb | hb
      · exact List.mem_cons_of_mem _ (h.live b hb)
      · rw [List.mem_singleton.1 hb]; exact List.mem_cons_self ..
    · rw [Own.mem_grow]
      refine List.pairwise_append.2 ⟨h.sep, List.pairwise_singleton .., ?_⟩
      intro b hb c hc
      rw [List.mem_singleton.1 hc]
      exact (hmem b hb).symm

/-- A request within the budget, when `malloc` gives memory. -/
theorem alloc_run [Sensible] {E : Env} (hE : Sound E) (hP : Plenty E) {m : Mem} {o : Own} {fuel size : Nat}
    (h : Good m o) (hs : Sep m.live) (hfuel : 33 ≤ fuel) (hb : o.serves size) :
    ∃ p m' o' new, alloc E fuel m o.a size = .ok (p, m') ∧ o'.a = o.a ∧ o'.cpp = o.cpp ∧
      o'.blocks = (p, size) :: o.blocks ∧ Good m' o' ∧ Sep m'.live ∧ m'.live = new ++ m.live ∧
      o'.mem = o.mem ++ new ∧ (∀ b ∈ new, ∀ c ∈ m.live, Disj b c) ∧ Only m m' (new ++ o.foot) := by
  rcases Nat.lt_or_ge o.last.cap (o.last.pos + size) with hf | hf
  · obtain ⟨k, j, h1, h2, h3, h4, h5, h6⟩ := grow_size h hfuel hb hf
    obtain ⟨p, hp⟩ := Option.isSome_iff_exists.1 (hP m.calls m.live (24 + rung j))
    obtain ⟨m', e1, e2, e3, e4, e5, e6⟩ := alloc_grow hE h hs h1 h2 h3 h4 h5 h6 hf hb hp
    refine ⟨p + 24, m', o.grow p (rung j) size, [(p, 24 + rung j)], e1, rfl, rfl, rfl, e5, e3, e2,
      Own.mem_grow .., ?_, e6⟩
    intro b hb
    rw [List.mem_singleton.1 hb]; exact e4
  · obtain ⟨m', e1, e2, e3, e4⟩ := alloc_fit (E := E) (fuel := fuel) h hs hf
    refine ⟨_, m', o.take size, [], e1, rfl, rfl, rfl, e3, by rw [e2]; exact hs, by rw [e2]; rfl,
      by rw [Own.mem_take]; simp, by simp, e4.mono ?_⟩
    intro r hr
    rw [List.mem_singleton.1 hr]
    exact ⟨o.last.hdr, List.mem_cons_of_mem _ (List.mem_map_of_mem o.last_mem), by simp [Within]⟩

/-! ### Creation and release -/

/-- A new allocator. -/
def Own.fresh (a : Nat) : Own := ⟨a, false, [], ⟨a, 16, chunk, 0⟩, []⟩
/-- A new C++ object, first chunk at `p`. -/
def Own.freshCpp (self p : Nat) : Own := ⟨self, true, [], ⟨p, 0, chunk, 0⟩, []⟩

theorem newAllocator_fits {E : Env} (hfit : chunk + 40 < 4294967296) (hE : Sound E) {m : Mem} {p : Nat} (hs : Sep m.live)
    (he : E m.calls m.live (40 + chunk) = some p) :
    ∃ m', newAllocator E m = .ok (p, m') ∧ m'.live = (p, 40 + chunk) :: m.live ∧ Sep m'.live ∧
      (∀ b ∈ m.live, Disj (p, 40 + chunk) b) ∧ Good m' (Own.fresh p) ∧ Only m m' [(p, 40 + chunk)] := by
  obtain ⟨m1, a1, a2, a3, a4, a5, a6⟩ := zjNew_run hE (n := (40 + chunk)) (by omega) (by omega) hs he
  have hl1 : (p, 40 + chunk) ∈ m1.live := by rw [a2]; exact List.mem_cons_self ..
  obtain ⟨m2, b1, b2, b3, b4, b5⟩ := wrAl_run (m := m1) (p := p) (n := ⟨p + 16, p + 16⟩) a4 hl1
    (by simp [Within]; omega)
  obtain ⟨m3, c1, c2, c3, c4, c5⟩ := wrAN_run (m := m2) (p := p + 16)
    (n := ⟨p + 16 + 24, chunk, 0, 0⟩) (by omega) (by rw [b2]; exact hl1) (by simp [Within]; omega)
  refine ⟨m3, ?_, by rw [c2, b2, a2], by rw [c2, b2]; exact a3, a5, ⟨⟨?_, ?_⟩, ?_, ?_, ?_⟩, ?_⟩
  · unfold newAllocator
    rw [show 16 + 24 + chunk = 40 + chunk by omega, a1]
    simp only
    rw [b1]
    simp only [Res.ok_bind]
    rw [c1]
    rfl
  · show m3.al p = _
    rw [c5.al, b4]
    · rfl
    · intro r hr; rw [List.mem_singleton.1 hr]; simp [Disj]
  · exact c4
  · refine ⟨a4, ?_, ?_, ⟨0, by rw [rung_zero]; omega, rung_zero.symm, by simp [Own.fresh]⟩, by simp [Own.fresh], by simp [Own.fresh],
      Or.inl (Nat.le_refl _), by simp [Own.fresh], List.Pairwise.nil, by simp [Own.fresh],
      by simp [Own.fresh]⟩
    · intro c r e
      simp only [Own.fresh, Own.cs, List.nil_append, List.cons.injEq] at e
      obtain ⟨rfl, rfl⟩ := e
      simp [Own.fresh]
    · intro c hc
      simp only [Own.fresh, Own.cs, List.nil_append, List.mem_singleton] at hc
      subst hc; simp
  · intro b hb
    simp [Own.mem, Own.fresh, Own.cs, Chunk.blk] at hb
    subst hb; rw [c2, b2]; exact hl1
  · simp [Own.mem, Own.fresh, Own.cs]
  · refine a6.trans ((b5.mono ?_).trans (c5.mono ?_)) <;> intro r hr <;>
      rw [List.mem_singleton.1 hr] <;> exact ⟨_, List.mem_singleton.2 rfl, by simp [Within] <;> omega⟩

theorem newAllocator_run [Sensible] {E : Env} (hE : Sound E) {m : Mem} {p : Nat} (hs : Sep m.live)
    (he : E m.calls m.live (40 + chunk) = some p) :
    ∃ m', newAllocator E m = .ok (p, m') ∧ m'.live = (p, 40 + chunk) :: m.live ∧ Sep m'.live ∧
      (∀ b ∈ m.live, Disj (p, 40 + chunk) b) ∧ Good m' (Own.fresh p) ∧ Only m m' [(p, 40 + chunk)] :=
  newAllocator_fits Sensible.chunk_fits hE hs he

/-- The constructor, on a block of 16 bytes of the caller. -/
theorem construct_run [Sensible] {E : Env} (hE : Sound E) {m : Mem} {self p : Nat} (hs : Sep m.live)
    (hself : (self, 16) ∈ m.live) (he : E m.calls m.live (24 + chunk) = some p) :
    ∃ m', construct E m self = .ok m' ∧ m'.live = (p, 24 + chunk) :: m.live ∧ Sep m'.live ∧
      (∀ b ∈ m.live, Disj (p, 24 + chunk) b) ∧ Good m' (Own.freshCpp self p) ∧
      Only m m' [(p, 24 + chunk), (self, 16)] := by
  have hfit := Sensible.chunk_fits
  obtain ⟨m1, a1, a2, a3, a4, a5, a6⟩ := zjNew_run hE (n := (24 + chunk)) (by omega) (by omega) hs he
  have hl1 : (p, 24 + chunk) ∈ m1.live := by rw [a2]; exact List.mem_cons_self ..
  have hnz := (hs.pos _ hself).1
  obtain ⟨m2, b1, b2, b3, b4, b5⟩ := wrAl_run (m := m1) (p := self) (n := ⟨p, p⟩) hnz
    (b := (self, 16)) (by rw [a2]; exact List.mem_cons_of_mem _ hself) (by simp [Within])
  obtain ⟨m3, c1, c2, c3, c4, c5⟩ := wrAN_run (m := m2) (p := p)
    (n := ⟨p + 24, chunk, 0, 0⟩) a4 (by rw [b2]; exact hl1) (by simp [Within])
  have hd := a5 _ hself
  refine ⟨m3, ?_, by rw [c2, b2, a2], by rw [c2, b2]; exact a3, a5, ⟨⟨?_, ?_⟩, ?_, ?_, ?_⟩, ?_⟩
  · unfold construct
    rw [a1]
    simp only
    rw [b1]
    simp only [Res.ok_bind]
    exact c1
  · show m3.al self = _
    rw [c5.al, b4]
    · rfl
    · intro r hr; rw [List.mem_singleton.1 hr]
      exact hd.symm.sub_right (by simp [Within])
  · exact c4
  · refine ⟨hnz, ?_, ?_, ⟨0, by rw [rung_zero]; omega, rung_zero.symm, by simp [Own.freshCpp]⟩, by simp [Own.freshCpp],
      by simp [Own.freshCpp],
      Or.inl (Nat.le_refl _), by simp [Own.freshCpp], List.Pairwise.nil, by simp [Own.freshCpp],
      by simp [Own.freshCpp]⟩
    · intro c r e
      simp only [Own.freshCpp, Own.cs, List.nil_append, List.cons.injEq] at e
      obtain ⟨rfl, rfl⟩ := e
      simp [Own.freshCpp]
    · intro c hc
      simp only [Own.freshCpp, Own.cs, List.nil_append, List.mem_singleton] at hc
      subst hc; simp
  · intro b hb
    simp [Own.mem, Own.freshCpp, Own.cs, Chunk.blk] at hb
    rw [c2, b2, a2]
    rcases hb with rfl | rfl
    · exact List.mem_cons_of_mem _ hself
    · exact List.mem_cons_self ..
  · simp only [Own.mem, Own.freshCpp, Own.cs, Chunk.blk, if_true, List.nil_append, List.map_cons,
      List.map_nil, List.cons_append, List.pairwise_cons, List.mem_singleton, forall_eq]
    exact ⟨hd.symm, by simp⟩
  · refine (a6.mono ?_).trans ((b5.mono ?_).trans (c5.mono ?_)) <;> intro r hr <;>
      rw [List.mem_singleton.1 hr]
    · exact ⟨_, List.mem_cons_self .., by simp [Within]⟩
    · exact ⟨_, List.mem_cons_of_mem _ (List.mem_singleton.2 rfl), by simp [Within]⟩
    · exact ⟨_, List.mem_cons_self .., by simp [Within]⟩

theorem freeChain_run {rest : List Block} : ∀ (cs : List Chunk) (fuel : Nat) (m : Mem),
    cs.length < fuel → (∀ c ∈ cs, c.off = 0) → Chain m.an cs 0 → Sep m.live →
    m.live.Perm (cs.map Chunk.blk ++ rest) →
    ∃ m', freeChain fuel m ((cs.head?.map Chunk.node).getD 0) = .ok m' ∧ m'.live.Perm rest ∧
      Sep m'.live ∧ Only m m' (cs.map Chunk.blk)
  | _, 0, _, h, _, _, _, _ => by omega
  | [], fuel + 1, m, _, _, _, hs, hl => ⟨m, by simp [freeChain], hl, hs, Only.refl ..⟩
  | c :: r, fuel + 1, m, hf, ho, hc, hs, hl => by
    have h0 : c.off = 0 := ho c (List.mem_cons_self ..)
    have hn : c.node = c.blk.1 := by simp [Chunk.node, Chunk.blk, h0]
    have hsp := hs.perm hl
    have hnz : c.node ≠ 0 := by
      rw [hn]; exact (hsp.pos c.blk (by simp)).1
    have hread : m.an c.node = some ⟨c.data, c.cap, c.pos, (r.head?.map Chunk.node).getD 0⟩ ∧
        Chain m.an r 0 := by
      cases r with
      | nil => exact ⟨hc, trivial⟩
      | cons d t => exact hc
    obtain ⟨m1, a1, a2, a3, a4⟩ := zjFree_run (b := c.blk) hs hl
    have hd : ∀ d ∈ r, Disj c.blk d.blk := by
      intro d hd
      exact (List.pairwise_cons.1 hsp.pair).1 _ (List.mem_append_left _ (List.mem_map_of_mem hd))
    have hch : Chain m1.an r 0 := hread.2.congr fun d hdm => by
      refine a4.an _ fun x hx => ?_
      rw [List.mem_singleton.1 hx]
      exact ((hd d hdm).sub_right d.hdr_in).symm
    obtain ⟨m2, b1, b2, b3, b4⟩ := freeChain_run r fuel m1 (by simp at hf; omega)
      (fun d hdm => ho d (List.mem_cons_of_mem _ hdm)) hch a3 a2
    refine ⟨m2, ?_, b2, b3, (a4.mono ?_).trans (b4.mono ?_)⟩
    · simp only [List.head?_cons, Option.map_some, Option.getD_some]
      unfold freeChain
      rw [if_neg hnz, rdAN_some hnz hread.1]
      simp only [Res.ok_bind]
      rw [hn, a1]
      simp only [Res.ok_bind]
      exact b1
    · intro x hx
      rw [List.mem_singleton.1 hx]
      exact ⟨c.blk, by simp, by simp [Within]⟩
    · intro x hx
      exact ⟨x, List.mem_cons_of_mem _ hx, by simp [Within]⟩

theorem Good.length [Sensible] {m : Mem} {o : Own} (h : Good m o) : o.cs.length ≤ 32 := by
  obtain ⟨k, h1, h2, h3⟩ := h.lay.cap
  have := rung_small (k := k) (by omega)
  simp [Own.cs]; omega

theorem release_run [Sensible] {m : Mem} {o : Own} {fuel : Nat} {rest : List Block} (h : Good m o)
    (hs : Sep m.live) (hfuel : 33 ≤ fuel) (hcpp : o.cpp = false)
    (hl : m.live.Perm (o.mem ++ rest)) :
    ∃ m', release fuel m o.a = .ok m' ∧ m'.live.Perm rest ∧ Sep m'.live ∧ Only m m' o.mem := by
  have hlen := h.length
  obtain ⟨c, r, hcs⟩ : ∃ c r, o.cs = c :: r := by
    cases e : o.cs with
    | nil => simp [Own.cs] at e
    | cons c r => exact ⟨c, r, rfl⟩
  obtain ⟨hf1, hf2, hf3⟩ := h.lay.first c r hcs
  obtain ⟨hbase, hoff⟩ := hf1 hcpp
  have hmem : o.mem = c.blk :: r.map Chunk.blk := by simp [Own.mem, hcpp, hcs]
  have hch := h.shape.chain
  rw [hcs] at hch hlen
  have hread : m.an c.node = some ⟨c.data, c.cap, c.pos, (r.head?.map Chunk.node).getD 0⟩ ∧
      Chain m.an r 0 := by
    cases r with
    | nil => exact ⟨hch, trivial⟩
    | cons d t => exact hch
  have hcn := h.node_nz hs (c := c) (by rw [hcs]; exact List.mem_cons_self ..)
  have hl' : m.live.Perm (r.map Chunk.blk ++ (c.blk :: rest)) := by
    refine hl.trans ?_
    rw [hmem]
    exact (List.perm_middle (a := c.blk) (l₁ := r.map Chunk.blk) (l₂ := rest)).symm
  obtain ⟨m1, a1, a2, a3, a4⟩ := freeChain_run r fuel m (by simp at hlen; omega) hf3 hread.2 hs hl'
  obtain ⟨m2, b1, b2, b3, b4⟩ := zjFree_run (b := c.blk) a3 a2
  refine ⟨m2, ?_, b2, b3, (a4.mono ?_).trans (b4.mono ?_)⟩
  · unfold release
    rw [rdAl_some h.lay.nz h.shape.al]
    simp only [Res.ok_bind, hcs, List.head?_cons, Option.map_some, Option.getD_some]
    rw [rdAN_some hcn hread.1]
    simp only [Res.ok_bind]
    rw [a1]
    simp only [Res.ok_bind]
    rw [← hbase]
    exact b1
  · intro x hx
    exact ⟨x, by rw [hmem]; exact List.mem_cons_of_mem _ hx, by simp [Within]⟩
  · intro x hx
    rw [List.mem_singleton.1 hx]
    exact ⟨c.blk, by rw [hmem]; simp, by simp [Within]⟩

/-- The destructor leaves the 16 bytes of the object to the caller. -/
theorem destruct_run [Sensible] {m : Mem} {o : Own} {fuel : Nat} {rest : List Block} (h : Good m o)
    (hs : Sep m.live) (hfuel : 33 ≤ fuel) (hcpp : o.cpp = true)
    (hl : m.live.Perm (o.mem ++ rest)) :
    ∃ m', destruct fuel m o.a = .ok m' ∧ m'.live.Perm ((o.a, 16) :: rest) ∧ Sep m'.live ∧
      Only m m' o.mem := by
  have hlen := h.length
  obtain ⟨c, r, hcs⟩ : ∃ c r, o.cs = c :: r := by
    cases e : o.cs with
    | nil => simp [Own.cs] at e
    | cons c r => exact ⟨c, r, rfl⟩
  obtain ⟨hf1, hf2, hf3⟩ := h.lay.first c r hcs
  have hmem : o.mem = (o.a, 16) :: o.cs.map Chunk.blk := by simp [Own.mem, hcpp]
  have hl' : m.live.Perm (o.cs.map Chunk.blk ++ ((o.a, 16) :: rest)) := by
    refine hl.trans ?_
    rw [hmem]
    exact (List.perm_middle (a := (o.a, 16)) (l₁ := o.cs.map Chunk.blk) (l₂ := rest)).symm
  obtain ⟨m1, a1, a2, a3, a4⟩ := freeChain_run o.cs fuel m (by omega)
    (by
      intro d hd
      rw [hcs] at hd
      rcases List.mem_cons.1 hd with rfl | hd
      · exact hf2 hcpp
      · exact hf3 d hd) h.shape.chain hs hl'
  refine ⟨m1, ?_, a2, a3, a4.mono ?_⟩
  · unfold destruct
    rw [rdAl_some h.lay.nz h.shape.al]
    simp only [Res.ok_bind]
    exact a1
  · intro x hx
    exact ⟨x, by rw [hmem]; exact List.mem_cons_of_mem _ hx, by simp [Within]⟩

end ZJ.Alloc
