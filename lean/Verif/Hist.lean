import Verif.Machine
import Verif.Trail

/-
From the abstract machine of `Machine` to the model of the code: `exec` runs one call, `WP`
says that a memory represents a store.
-/

set_option linter.unusedSimpArgs false
set_option linter.unusedVariables false

namespace ZJ

/-! ### Running calls -/

/-- The caller frees the block a text is in. -/
def freeText : SPtr → M Unit
  | .buf b _ => fun st => .ok ((), st.clobber b none)
  | .lit _ => pure ()

/-- The caller puts the bytes `d` into a new block and calls `f` with it. Unless `keep`, the
block is freed right after the call. -/
def withText {α : Type} (d : Bytes) (keep : Bool) (f : SPtr → M α) : M α := do
  let p ← callerText d
  let r ← f p
  if keep then return r
  freeText p
  return r

/-- The caller reads a C string the call returned. -/
def readC : Option SPtr → M (Option Bytes)
  | none => return none
  | some p => do
    let (s, _) ← view p
    let n ← lift (strLen s)
    return some (s.take n)

/-- The caller reads a text with its length the call returned. -/
def readL : Option (SPtr × Nat) → M (Option Bytes)
  | none => return none
  | some (p, n) => do return some (← readN p n)

/-- The bytes the caller passes for the text `b`. -/
def passed (len : Bool) (b : Bytes) : Bytes := if len then b else b ++ [0]

def ParseFn.run : ParseFn → Addr → Nat → SPtr → M Bool
  | .parse, v, _, p => ZJ.parse v p
  | .parseLen, v, n, p => ZJ.parseLen v p n
  | .parseFast, v, _, p => ZJ.parseFast v p

def ParseFn.len : ParseFn → Bool
  | .parseLen => true
  | _ => false

def ParseFn.keep : ParseFn → Bool
  | .parseFast => true
  | _ => false

def TextFn.run : TextFn → Addr → Nat → SPtr → M Bool
  | .str, v, _, p => setStr v p
  | .strLen, v, n, p => setStrLen v p n
  | .strFast, v, _, p => setStrFast v p
  | .strLenFast, v, n, p => setStrLenFast v p n
  | .strEsc, v, _, p => setStrEscape v p
  | .strLenEsc, v, n, p => setStrLenEscape v p n
  | .num, v, _, p => setNumStr v p
  | .numLen, v, n, p => setNumStrLen v p n
  | .numFast, v, _, p => setNumStrFast v p
  | .numLenFast, v, n, p => setNumStrLenFast v p n

/-- Whether the document points to the text of the caller. -/
def TextFn.keep : TextFn → Bool
  | .strFast | .strLenFast | .numFast | .numLenFast => true
  | _ => false

def KeyFn.run : KeyFn → Addr → Nat → SPtr → M Bool
  | .key, v, _, p => setKeyC v p
  | .keyLen, v, n, p => setKeyLenC v p n
  | .keyFast, v, _, p => setKeyFast v p
  | .keyLenFast, v, n, p => setKeyLenFast v p n
  | .keyEsc, v, _, p => setKeyEscape v p
  | .keyLenEsc, v, n, p => setKeyLenEscape v p n

def KeyFn.keep : KeyFn → Bool
  | .keyFast | .keyLenFast => true
  | _ => false

def IntFn.run : IntFn → Addr → Int → M Bool
  | .int => setInt
  | .long => setLong
  | .longLong => setLongLong

def GetFn.run {D : Type} (fp : FP D) (F : Nat) : GetFn → Addr → M (Ans D)
  | .type, v => do return .type (← getType v)
  | .size, v => do return .nat (← sizeOf v)
  | .null, v => do return .bool (← isNull v)
  | .bool, v => do return .truth (← getBool v)
  | .str, v => do return .bytes (← readC (← getStr v))
  | .strFast, v => do return .bytes (← readL (← getStrFast v))
  | .unStr, v => do return .bytes (← readC (← getUnEscapeStr v))
  | .numStr, v => do return .bytes (← readC (← getNumStr v))
  | .numFast, v => do return .bytes (← readL (← getNumFast v))
  | .int, v => do return .int (← getInt v)
  | .long, v => do return .int (← getLong v)
  | .longLong, v => do return .int (← getLongLong v)
  | .double, v => do return .double (← getDouble fp v)
  | .key, v => do return .bytes (← readC (← getKey v))
  | .keyFast, v => do return .bytes (← readL (← getKeyFast v))
  | .unKey, v => do return .bytes (← readC (← getUnEscapeKey v))
  | .print, v => do return .bytes (← readC (some (← stringify F v)))

def NavFn.run (F : Nat) : NavFn → Addr → M (Option Addr)
  | .begin, v => begin_ v
  | .next, v => next_ v
  | .array i, v => arrayGet F v i
  | .obj k, v => withText (k ++ [0]) false (objGet F v)
  | .objLen k, v => withText k false fun p => objGetLen F v p k.length

/-- One call of the API by a client that hands over its texts in memory of its own and reads
the texts it gets. `F` bounds the number of steps of the loops that walk over documents. -/
def exec {D : Type} (fp : FP D) (F : Nat) : Call D → M (Ans D)
  | .newAlloc => do return .alloc (← newAllocator)
  | .release A => do releaseAllocator A; return .unit
  | .newValue A => do return .handle (some (← newValue A))
  | .parse f v b => do return .bool (← withText (passed f.len b) f.keep (f.run v b.length))
  | .text f v b => do return .bool (← withText (passed f.len b) f.keep (f.run v b.length))
  | .null v => do setNull v; return .unit
  | .bool v b => do setBool v b; return .unit
  | .array v => do setArray v; return .unit
  | .object v => do setObj v; return .unit
  | .int f v n => do return .bool (← f.run v n)
  | .double v d => do return .bool (← setDouble fp v d)
  | .key f v b => do return .bool (← withText (passed f.len b) f.keep (f.run v b.length))
  | .get f v => f.run fp F v
  | .nav f v => do return .handle (← f.run F v)
  | .copy v => do return .handle (← ZJ.copy F v)
  | .move v => do return .bool (← ZJ.move v)
  | .add true true v w => do return .bool (← objAddFast v w)
  | .add true false v w => do return .bool (← objAdd F v w)
  | .add false true v w => do return .bool (← arrayAddFast v w)
  | .add false false v w => do return .bool (← arrayAdd F v w)
  | .delAt v i => do return .bool (← arrayDel F v i)
  | .delKey v k => do return .bool (← withText (k ++ [0]) false (objDel F v))
  | .set true v w => do return .bool (← ZJ.setFast F v w)
  | .set false v w => do return .bool (← ZJ.set F v w)

/-! ### The memory represents the store -/

/-- The blocks of the scratch string belong to its allocator. -/
def OwnZ (st : St) (z : ZStr) : Prop :=
  (∃ bf, st.bufs z.hdr = some bf ∧ bf.owner = some z.a) ∧ (∃ bf, st.bufs z.data = some bf ∧ bf.owner = some z.a)

/-- The names are counted by the memory. -/
structure Seen.Below (q : Seen) (st : St) : Prop where
  node : ∀ a, q.node a → a < st.nn
  hnd : ∀ v, q.hnd v → v < st.nv
  alloc : ∀ A, q.alloc A → A < st.na

theorem Seen.Below.mono {q : Seen} {st st' : St} (h : q.Below st) (h1 : st.nn ≤ st'.nn) (h2 : st.nv ≤ st'.nv) (h3 : st.na ≤ st'.na) :
    q.Below st' :=
  ⟨fun a ha => Nat.lt_of_lt_of_le (h.node a ha) h1, fun v hv => Nat.lt_of_lt_of_le (h.hnd v hv) h2,
    fun A hA => Nat.lt_of_lt_of_le (h.alloc A hA) h3⟩

theorem Seen.Below.frame {q : Seen} {st st' : St} {N V B : Addr → Prop} (h : q.Below st) (hF : Frame N V B st st') : q.Below st' :=
  h.mono hF.nn hF.nv (Nat.le_of_eq hF.na.symm)

theorem Seen.Below.nodes {q : Seen} {st : St} {S : Addr → Prop} (h : q.Below st) (hS : ∀ a, S a → a < st.nn) : (q.nodes S).Below st :=
  ⟨fun a ha => ha.elim (h.node a) (hS a), h.hnd, h.alloc⟩

theorem Seen.Below.hnds {q : Seen} {st : St} {v : Addr} (h : q.Below st) (hv : v < st.nv) : (q.hnds v).Below st :=
  ⟨h.node, fun w hw => hw.elim (h.hnd w) (fun e => e ▸ hv), h.alloc⟩

/-- The memory `st`, with the blocks `P` in use by documents, represents the store `s`. -/
structure WP (st : St) (P : Addr → Prop) (s : Store) : Prop where
  inv : Inv st P s.node
  hnd : ∀ v y, s.hnd v = some y → st.vals v = some y ∧ ∀ a, y.n = some a → (s.node a).isSome
  live : s.live = st.allocs
  fresh : ∀ A, st.na ≤ A → st.allocs A = false
  pad : s.pad = true → ∀ b, 3 ≤ st.slack b
  valid : GValid s.node
  tail : ∀ a gn raw, s.tail a = true → s.node a = some gn → gn.val = .num raw → Tail st a raw
  dep : ∀ a R, (s.node a).isSome → s.dep a R = false → Clean st R a
  scr : ∀ z, st.cache = some z → s.scr = some z.a ∧ z.a < st.na ∧
    (st.allocs z.a = true → (∃ cont, ZOK st z cont) ∧ OwnZ st z)
  scr0 : st.cache = none → s.scr = none
  seen : s.seen.Below st

variable {st st' : St} {P P' : Addr → Prop} {s s' : Store} {v w a A x : Addr} {gn : GNode}

theorem WP.cok (h : WP st P s) (hs : s.scrOK) : CacheOK st := fun z hz => by
  obtain ⟨h1, _, h2⟩ := h.scr z hz
  exact (h2 (by rw [← h.live]; exact hs _ h1)).1

theorem Inv.forest {G : Graph} (hI : Inv st P G) : Forest G := fun f gf o ks hf hv => by
  obtain ⟨n, hn, hk⟩ := hI.rep f gf hf
  refine ⟨?_, fun k hk => hI.con_kid hf hv hk⟩
  have := hk.val
  rw [hv] at this
  exact this.nodup

theorem Unf.kids_some {g : Graph} {n c : Addr} {t : Json} {y : GNode} (hu : Unf g n t) (hr : Reach g n c) (hc : g c = some y) :
    ∀ k ∈ y.val.kids, (g k).isSome := by
  obtain ⟨p, hp⟩ := hr.path
  obtain ⟨u, hu', _⟩ := hp.at hu
  obtain ⟨h1, h2⟩ := hu'
  rw [hc] at h1; cases h1
  exact h2.kids_some

theorem Forest.sub {G g : Graph} (hF : Forest G) (hle : g.le G) (hk : ∀ f gf, g f = some gf → ∀ k ∈ gf.val.kids, (g k).isSome) :
    Forest g := fun f gf o ks hf hv => by
  obtain ⟨h1, h2⟩ := hF f gf o ks (hle _ _ hf) hv
  refine ⟨h1, fun k hkk => ?_⟩
  obtain ⟨gk, e⟩ := Option.isSome_iff_exists.1 (hk f gf hf k (by rw [hv]; exact hkk))
  obtain ⟨gk', e1, e2⟩ := h2 k hkk
  rw [hle _ _ e] at e1; cases e1
  exact ⟨gk, e, e2⟩

/-- A represented store is well-formed. -/
theorem WP.wf (h : WP st P s) : Wf s where
  forest := h.inv.forest
  valid := h.valid
  finite a gn ha := h.inv.fin a gn ha
  hnd v y hv := by
    obtain ⟨h1, h2⟩ := h.hnd v y hv
    exact ⟨by rw [h.live]; exact h.inv.ok.live v y h1, h2⟩

/-! ### What a call leaves as it is -/

/-- The texts of a represented node are in blocks that are in use. -/
theorem Inv.ptr {G : Graph} (hI : Inv st P G) (ha : G a = some gn) {n : Node} (hn : st.nodes a = some n) {b : Addr} {off : Nat}
    (hp : n.key = some (some (.buf b off)) ∨ n.value = some (.str (.buf b off))) : P b := by
  obtain ⟨n', e, hk⟩ := hI.rep a gn ha
  rw [hn] at e; cases e
  rcases hp with hp | hp
  · have := hk.key
    cases h : gn.key with
    | none => rw [h] at this; rw [this] at hp; cases hp
    | some k =>
      rw [h] at this
      obtain ⟨p, h1, _, h3⟩ := this
      rw [hp] at h1; cases h1
      exact h3.1
  · cases hc : gn.val.isCon with
    | true =>
      have := hk.val
      cases hv : gn.val <;> rw [hv] at hc this <;> try cases hc
      rw [this.value] at hp; cases hp
    | false =>
      obtain ⟨_, p, h1, _, h3, _⟩ := (ValOK.scalar hc).1 hk.val
      rw [hp] at h1; cases h1
      exact h3.1

variable {k : Kit} {R : Nat} {G : Graph}

/-- A node that was not written. -/
theorem Clean.keep (hI : Inv st P G) (ha : (G a).isSome) (hc : Clean st R a) (e : st'.nodes a = st.nodes a)
    (hp : Pers st st') : Clean st' R a := by
  intro n hn
  rw [e] at hn
  obtain ⟨h1, h2⟩ := hc n hn
  refine ⟨h1, fun b off hb bf' hbf' => ?_⟩
  obtain ⟨gn, hg⟩ := Option.isSome_iff_exists.1 ha
  obtain ⟨bf, hbf⟩ := Option.isSome_iff_exists.1 (hI.pin b (hI.ptr hg hn hb)).1
  obtain ⟨bf1, e1, e2⟩ := hp.bufs b bf hbf
  rw [e1] at hbf'; cases hbf'
  rw [e2]; exact h2 b off hb bf hbf

/-- A node that may have got one of the pointers of `k`. -/
theorem Clean.next (hI : Inv k.st0 P G) (ha : (G a).isSome) (hc : Clean k.st0 R a) (hm : Mid k st') (hp : Pers k.st0 st')
    (hq : ∀ b off, k.Q (.buf b off) ∨ k.Y a (.buf b off) → ∀ bf, st'.bufs b = some bf → bf.owner ≠ some R) :
    Clean st' R a := by
  obtain ⟨gn, hg⟩ := Option.isSome_iff_exists.1 ha
  intro n' hn'
  obtain ⟨n, hn, _⟩ := hI.rep a gn hg
  obtain ⟨n1, e1, e2, e3, e4⟩ := hm.old a n hn
  rw [hn'] at e1; cases e1
  obtain ⟨h1, h2⟩ := hc n hn
  refine ⟨by rw [e2]; exact h1, fun b off hb bf' hbf' => ?_⟩
  have keep : ∀ b off, n.key = some (some (.buf b off)) ∨ n.value = some (.str (.buf b off)) →
      ∀ bf, st'.bufs b = some bf → bf.owner ≠ some R := fun b off hb bf' hbf' => by
    obtain ⟨bf, hbf⟩ := Option.isSome_iff_exists.1 (hI.pin b (hI.ptr hg hn hb)).1
    obtain ⟨bf1, f1, f2⟩ := hp.bufs b bf hbf
    rw [f1] at hbf'; cases hbf'
    rw [f2]; exact h2 b off hb bf hbf
  rcases hb with hb | hb
  · rcases e3 with e3 | e3
    · exact keep b off (.inl (e3 ▸ hb)) bf' hbf'
    · exact hq b off (e3 _ hb) bf' hbf'
  · rcases e4 with e4 | e4
    · exact keep b off (.inr (e4 ▸ hb)) bf' hbf'
    · exact hq b off (e4 _ hb) bf' hbf'

/-- A node that was made. -/
theorem Clean.fresh (h0 : k.st0.nodes a = none) (hm : Mid k st') (hR : ¬ k.As R)
    (hq : ∀ b off, k.Q (.buf b off) ∨ k.Y a (.buf b off) → ∀ bf, st'.bufs b = some bf → bf.owner ≠ some R) :
    Clean st' R a := by
  intro n hn
  obtain ⟨h1, h2, h3⟩ := hm.new a n h0 hn
  refine ⟨fun e => hR (e ▸ h1), fun b off hb => ?_⟩
  rcases hb with hb | hb
  · exact hq b off (h2 _ hb)
  · exact hq b off (h3 _ hb)

/-- What the cases of `WP.scr` are about. -/
def ScrOK (st : St) (s : Store) : Prop :=
  (∀ z, st.cache = some z → s.scr = some z.a ∧ z.a < st.na ∧ (st.allocs z.a = true → (∃ cont, ZOK st z cont) ∧ OwnZ st z)) ∧
  (st.cache = none → s.scr = none)

theorem WP.scr_next (h : WP k.st0 P s) {A : Nat} {b : Bool} (hm : Mid k k.stF) (hW : s.scrOK → k.W)
    (hC : ∀ B, k.Cs B → b = true ∧ B = A) (hlt : b = true → A < k.st0.na) (hna : k.stF.na = k.st0.na) (hal : k.stF.allocs = k.st0.allocs) (hcok : CacheOK k.st0 → CacheOK k.stF)
    (hb : b = true → k.stF.cache.isSome = true) : ScrOK k.stF (s.use b A) := by
  cases hc : k.st0.cache with
  | some z0 =>
    obtain ⟨h1, hl0, h2⟩ := h.scr z0 hc
    obtain ⟨z', e1, e2⟩ := hm.cacheO z0 hc
    have hs : (s.use b A).scr = some z0.a := by
      unfold Store.use; split <;> simp [h1]
    refine ⟨fun z hz => ?_, fun hn => by rw [hn] at e1; cases e1⟩
    rw [e1] at hz; cases hz
    refine ⟨by rw [hs, e2], by rw [hna, e2]; exact hl0, fun hl => ?_⟩
    rw [hal, e2] at hl
    have hc0 : CacheOK k.st0 := fun z hz => by rw [hc] at hz; cases hz; exact (h2 hl).1
    have hs : s.scrOK := fun A' hA' => by rw [h1] at hA'; cases hA'; rw [h.live]; exact hl
    exact ⟨hcok hc0 z' e1, hm.cache z' e1 (hW hs)⟩
  | none =>
    have h1 := h.scr0 hc
    refine ⟨fun z hz => ?_, fun hn => ?_⟩
    · obtain ⟨hb1, hA⟩ := hC _ (hm.cacheN hc z hz)
      refine ⟨by simp [Store.use, hb1, h1, hA], by rw [hna, hA]; exact hlt hb1, fun hl => ?_⟩
      have hc0 : CacheOK k.st0 := fun z hz => by rw [hc] at hz; cases hz
      have hs : s.scrOK := fun A' hA' => by rw [h1] at hA'; cases hA'
      exact ⟨hcok hc0 z hz, hm.cache z hz (hW hs)⟩
    · cases b with
      | false => exact h1
      | true => have := hb rfl; rw [hn] at this; cases this

/-- The scratch string was not used. -/
theorem WP.scr_same (h : WP st P s) (hc : st'.cache = st.cache) (hna : st'.na = st.na) (hal : st'.allocs = st.allocs)
    (hb : ∀ b, b < st.nb → st'.bufs b = st.bufs b) : ScrOK st' s := by
  refine ⟨fun z hz => ?_, fun hn => h.scr0 (hc ▸ hn)⟩
  rw [hc] at hz
  obtain ⟨h1, hl0, h2⟩ := h.scr z hz
  refine ⟨h1, by rw [hna]; exact hl0, fun hl => ?_⟩
  rw [hal] at hl
  obtain ⟨⟨cont, h3⟩, h4⟩ := h2 hl
  obtain ⟨l1, l2⟩ := h.inv.ok.cache z hz
  refine ⟨⟨cont, ?_⟩, ?_⟩
  · exact ⟨by rw [hal]; exact h3.live, by rw [hb _ l1]; exact h3.hdr, by rw [hb _ l2]; exact h3.buf, h3.room⟩
  · unfold OwnZ; rw [hb _ l1, hb _ l2]; exact h4

theorem Frame.pers {N V B : Addr → Prop} (hF : Frame N V B st st') (ho : StOK st) (hN : ∀ a, ¬ N a) (hB : ∀ b, ¬ B b)
    (hc : st'.cache = st.cache) : Pers st st' where
  nodes a n hn := ⟨n, by rw [hF.nodes a (ho.node_lt hn) (hN a)]; exact hn, rfl⟩
  bufs b bf hb := ⟨bf, by rw [hF.bufs b (ho.buf_lt hb) (hB b)]; exact hb, rfl⟩
  cache h := by rw [hc]; exact h

/-- Only memory was allocated, and handles outside the store were changed. -/
theorem WP.unch {V : Addr → Prop} (h : WP st P s) (hI : Inv st' P' s.node)
    (hF : Frame (fun _ => False) V (fun _ => False) st st') (hc : st'.cache = st.cache) (hV : ∀ v, V v → s.hnd v = none) :
    WP st' P' s where
  inv := hI
  hnd v y hv := by
    obtain ⟨h1, h2⟩ := h.hnd v y hv
    exact ⟨by rw [hF.vals v (h.inv.ok.val_lt h1) (fun hv' => by rw [hV v hv'] at hv; cases hv)]; exact h1, h2⟩
  live := by rw [hF.allocs]; exact h.live
  fresh := by rw [hF.allocs, hF.na]; exact h.fresh
  pad := by rw [hF.slack]; exact h.pad
  valid := h.valid
  tail a gn raw ht hg hv := (h.tail a gn raw ht hg hv).frame h.inv hg hv (hF.weaken (fun _ h => h) (fun _ h => h) (fun _ h => h.elim)) (fun h => h)
  dep a R ha hd := by
    obtain ⟨gn, hg⟩ := Option.isSome_iff_exists.1 ha
    exact (h.dep a R ha hd).keep h.inv ha (hF.nodes a (h.inv.lt hg) (fun h => h)) (hF.pers h.inv.ok (fun _ h => h) (fun _ h => h) hc)
  scr := (h.scr_same hc hF.na hF.allocs fun b hb => hF.bufs b hb fun h => h).1
  scr0 := (h.scr_same hc hF.na hF.allocs fun b hb => hF.bufs b hb fun h => h).2
  seen := h.seen.frame hF

theorem WP.unchanged (h : WP st P s) (hU : Unchanged st st') (ho : StOK st') : WP st' P s :=
  h.unch (h.inv.unchanged hU ho) hU.1 hU.2 fun _ h => h.elim

theorem WP.addC (h : WP st P s) (d : Bytes) : WP (st.addC d) P s := h.unchanged addC_unch (addC_ok h.inv.ok)

theorem WP.addC_pin (h : WP st P s) (d : Bytes) : WP (st.addC d) (fun c => P c ∨ c = st.nb) s :=
  h.unch h.inv.addC_pin addC_unch.1 addC_unch.2 fun _ h => h.elim

theorem WP.addB (h : WP st P s) {A sz : Nat} {d : Bytes} (hd : d.length ≤ sz) : WP (st.addB A sz d) P s :=
  h.unchanged addB_frame (addB_ok h.inv.ok hd)

/-- A block no document uses, and which is not part of the scratch string, is freed. -/
theorem WP.clobber (h : WP st P s) {c : Addr} (hc : ¬ P c) (hl : c < st.nb)
    (ho : ∃ bf, st.bufs c = some bf ∧ bf.owner = none) : WP (st.clobber c none) P s where
  inv := h.inv.clobber hc (fun _ h => by cases h) hl
  hnd := h.hnd
  live := h.live
  fresh := h.fresh
  pad := h.pad
  valid := h.valid
  tail a gn raw ht hg hv := by
    obtain ⟨nd, p, c', r, lim, h1, h2, h3, h4⟩ := h.tail a gn raw ht hg hv
    refine ⟨nd, p, c', r, lim, h1, h2, ?_, h4⟩
    cases p with
    | lit s => simpa [ZJ.view] using h3
    | buf b off =>
      have hb : b ≠ c := fun e => hc (e ▸ h.inv.ptr hg h1 (.inr h2))
      have : (st.clobber c none).bufs b = st.bufs b := upd_ne _ _ hb
      simp only [ZJ.view, this] at h3 ⊢
      cases hb' : st.bufs b <;> rw [hb'] at h3 <;> simp at h3 ⊢
      exact h3
  dep a R ha hd n hn := by
    obtain ⟨h1, h2⟩ := h.dep a R ha hd n hn
    refine ⟨h1, fun b off hb bf hbf => h2 b off hb bf ?_⟩
    have hbf : upd st.bufs c none b = some bf := hbf
    by_cases e : b = c
    · subst e; rw [upd_same] at hbf; cases hbf
    · rw [upd_ne _ _ e] at hbf; exact hbf
  scr z hz := by
    obtain ⟨h1, hl0, h2⟩ := h.scr z hz
    refine ⟨h1, hl0, fun hl => ?_⟩
    obtain ⟨⟨cont, h3⟩, h4, h5⟩ := h2 hl
    obtain ⟨bf, hb, hn⟩ := ho
    have n1 : z.hdr ≠ c := fun e => by
      obtain ⟨bf', e1, e2⟩ := h4
      rw [e, hb] at e1; cases e1; rw [hn] at e2; cases e2
    have n2 : z.data ≠ c := fun e => by
      obtain ⟨bf', e1, e2⟩ := h5
      rw [e, hb] at e1; cases e1; rw [hn] at e2; cases e2
    have u1 : (st.clobber c none).bufs z.hdr = st.bufs z.hdr := upd_ne _ _ n1
    have u2 : (st.clobber c none).bufs z.data = st.bufs z.data := upd_ne _ _ n2
    refine ⟨⟨cont, h3.live, by rw [u1]; exact h3.hdr, by rw [u2]; exact h3.buf, h3.room⟩, ?_⟩
    unfold OwnZ; rw [u1, u2]; exact ⟨h4, h5⟩
  scr0 := h.scr0
  seen := ⟨h.seen.node, h.seen.hnd, h.seen.alloc⟩

/-! ### Traces -/

/-- A triple about the whole call. -/
theorem Tri.run {α : Type} {Pre : Prop} {m : M α} {R : α → Prop} {r : α} (T : Tri k Pre m R) (e : m k.st0 = .ok (r, k.stF))
    (ho : StOK k.st0) (hm : Pers k.st0 k.stF → Mid k k.st0) (hp : Pers k.st0 k.stF → Pre) :
    Pers k.st0 k.stF ∧ Mid k k.stF ∧ R r := by
  obtain ⟨_, h2⟩ := T.pers _ _ _ e ⟨ho.nodes, ho.bufs⟩
  obtain ⟨h3, h4⟩ := T.go _ _ _ e ⟨ho.nodes, ho.bufs⟩ (hm h2) .refl (hp h2)
  exact ⟨h2, h3, h4⟩

theorem WP.mid (h : WP k.st0 P s) (hW : k.W → s.scrOK) (hs : ∀ v y, k.Hs v → k.st0.vals v = some y → k.As y.a)
    (hn : ∀ v, k.st0.nv ≤ v → k.Hs v) (hp : Pers k.st0 k.stF) : Mid k k.st0 where
  old a n hn := ⟨n, hn, rfl, .inl rfl, .inl rfl⟩
  new a n h1 h2 := by rw [h1] at h2; cases h2
  hs := hs
  hnew := hn
  cache z hz w := by
    obtain ⟨h1, _, h2⟩ := h.scr z hz
    obtain ⟨_, ⟨bf, e1, e2⟩, ⟨bf', e3, e4⟩⟩ := h2 (by rw [← h.live]; exact hW w _ h1)
    obtain ⟨b1, f1, f2⟩ := hp.bufs _ _ e1
    obtain ⟨b2, f3, f4⟩ := hp.bufs _ _ e3
    exact ⟨⟨b1, f1, f2.trans e2⟩, ⟨b2, f3, f4.trans e4⟩⟩
  cacheO z hz := ⟨z, hz, rfl⟩
  cacheN hc z hz := by rw [hc] at hz; cases hz

/-- The block a pointer leads to belongs to the caller or to `A`. -/
def Ofs (st : St) (A : Nat) (p : SPtr) : Prop :=
  ∀ b off, p = .buf b off → ∀ bf, st.bufs b = some bf → bf.owner = none ∨ bf.owner = some A

/-- A setter called with the handle `v`, in allocator `A`. -/
abbrev tkit (st st' : St) (A : Nat) (v : Addr) (Y : SPtr → Prop) (b : Bool) (W : Prop) : Kit where
  st0 := st
  stF := st'
  As := (· = A)
  Hs w := w = v ∨ st.nv ≤ w
  Q := Ofs st' A
  Y _ := Y
  Cs B := b = true ∧ B = A
  W := W

theorem tkit_fine {Y : SPtr → Prop} {b : Bool} {W : Prop} {A : Nat} : (tkit st st' A v Y b W).Fine where
  own c B off h hB d o e bf hb := by
    cases e
    obtain ⟨bf', e1, e2⟩ := h
    have hB : B = A := hB
    have e1 : st'.bufs c = some bf' := e1
    rw [hb] at e1; cases e1; exact .inr (hB ▸ e2)
  lit s d o e := by cases e
  add p n h d o e bf hb := by
    cases p with
    | lit s => cases e
    | buf c off => cases e; exact h _ _ rfl bf hb

/-- The trace of a setter. -/
structure Trace (st st' : St) (A : Nat) (v : Addr) (b : Bool) (W : Prop) : Prop where
  pers : Pers st st'
  mid : Mid (tkit st st' A v (fun _ => False) b W) st'
  scr : b = true → st'.cache.isSome = true
  lt : A < st.na

theorem WP.trace {α : Type} {m : M α} {R : α → Prop} {r : α} {b : Bool} {Pre : Prop} {x : Option Addr} {A : Nat}
    (h : WP st P s) (hv : s.hnd v = some ⟨x, A⟩)
    (e : m st = .ok (r, st')) (T : Tri (tkit st st' A v (fun _ => False) b s.scrOK) Pre m R)
    (hp : Pers st st' → Pre) (hR : R r → b = true → st'.cache.isSome = true) : Trace st st' A v b s.scrOK := by
  have hs : ∀ w y, (w = v ∨ st.nv ≤ w) → st.vals w = some y → y.a = A := by
    intro w y hw hy
    rcases hw with rfl | hw
    · rw [(h.hnd _ _ hv).1] at hy; cases hy; rfl
    · rw [h.inv.ok.vals w hw] at hy; cases hy
  obtain ⟨h1, h2, h3⟩ := T.run e h.inv.ok (fun hp => WP.mid (k := tkit st st' A v (fun _ => False) b s.scrOK) h (fun h => h) hs
    (fun w hw => .inr hw) hp) hp
  refine ⟨h1, h2, hR h3, ?_⟩
  have hl := h.inv.ok.live v _ (h.hnd _ _ hv).1
  by_cases hA : A < st.na
  · exact hA
  · rw [h.fresh A (by omega)] at hl; cases hl

theorem WP.scr_trace {A : Nat} {b : Bool} (h : WP st P s) (ht : Trace st st' A v b s.scrOK) (hna : st'.na = st.na) (hal : st'.allocs = st.allocs)
    (hcok : CacheOK st → CacheOK st') : ScrOK st' (s.use b A) :=
  WP.scr_next (k := tkit st st' A v (fun _ => False) b s.scrOK) h ht.mid (fun h => h) (fun _ h => h) (fun _ => ht.lt) hna hal hcok ht.scr

theorem Ofs.ne {A : Nat} {b : Addr} {off : Nat} (h : Ofs st A (.buf b off) ∨ False) (hR : R ≠ A) :
    ∀ bf, st.bufs b = some bf → bf.owner ≠ some R := fun bf hb e => by
  rcases h with h | h
  · rcases h b off rfl bf hb with h | h
    · rw [e] at h; cases h
    · rw [e] at h; cases h; exact hR rfl
  · exact h

/-- The pointer of the caller. -/
theorem Ofs.caller {A : Nat} {c : Addr} {off : Nat} (hp : Pers st st') (ho : ∃ bf, st.bufs c = some bf ∧ bf.owner = none) :
    Ofs st' A (.buf c off) := by
  intro b o e bf hb
  cases e
  obtain ⟨bf0, e1, e2⟩ := ho
  obtain ⟨bf1, e3, e4⟩ := hp.bufs c bf0 e1
  rw [hb] at e3; cases e3
  exact .inl (e4.trans e2)

/-- One node was written. -/
theorem WP.put {A : Nat} {b : Bool} {x : Option Addr} {B : Addr → Prop} {gn' : GNode} {tl : Bool} (h : WP st P s)
    (hv : s.hnd v = some ⟨x, A⟩) (ht : Trace st st' A v b s.scrOK)
    (hI : Inv st' P' (s.node.set (rootOf st x) gn')) (hvals : st'.vals v = some ⟨some (rootOf st x), A⟩)
    (hF : Frame (· = rootOf st x) (· = v) B st st') (hB : ∀ b, B b → CacheB st b) (hcok : CacheOK st → CacheOK st')
    (hkey : ∀ k, gn'.key = some k → IsStrBody k) (hnum : ∀ s, gn'.val = .num s → IsNum s)
    (hstr : ∀ s, gn'.val = .str s → IsStrBody s)
    (htl : tl = true → ∀ raw, gn'.val = .num raw → Tail st' (rootOf st x) raw) :
    WP st' P' ((s.use b A).put v A (rootOf st x) gn' tl) := by
  have hnode : (s.use b A).node = s.node := by unfold Store.use; split <;> rfl
  have hh : (s.use b A).hnd = s.hnd := by unfold Store.use; split <;> rfl
  have hl : (s.use b A).live = s.live := by unfold Store.use; split <;> rfl
  have hpad : (s.use b A).pad = s.pad := by unfold Store.use; split <;> rfl
  have htail : (s.use b A).tail = s.tail := by unfold Store.use; split <;> rfl
  have hdep : (s.use b A).dep = s.dep := by unfold Store.use; split <;> rfl
  have huses : (s.use b A).uses = s.uses := by unfold Store.uses; rw [hnode, hdep]
  have hseen : (s.use b A).seen = s.seen := by unfold Store.use; split <;> rfl
  have hscr := h.scr_trace ht hF.na hF.allocs hcok
  generalize s.use b A = s1 at hseen hnode hh hl hpad htail hdep huses hscr ⊢
  refine ⟨?_, ?_, ?_, ?_, ?_, ?_, ?_, ?_, hscr.1, hscr.2, ?_⟩
  · show Inv st' P' (s1.node.set _ _)
    rw [hnode]; exact hI
  · intro w y hw
    have hw : upd s1.hnd v _ w = some y := hw
    show _ ∧ ∀ a, _ → ((s1.node.set _ _) a).isSome
    by_cases e : w = v
    · subst e; rw [upd_same] at hw; cases hw
      exact ⟨hvals, fun a ha => by cases ha; simp [Graph.set]⟩
    · rw [upd_ne _ _ e, hh] at hw
      obtain ⟨h1, h2⟩ := h.hnd w y hw
      refine ⟨by rw [hF.vals w (h.inv.ok.val_lt h1) e]; exact h1, fun a ha => ?_⟩
      simp only [Graph.set, hnode]; split
      · rfl
      · exact h2 a ha
  · show s1.live = _
    rw [hl, hF.allocs]; exact h.live
  · rw [hF.allocs, hF.na]; exact h.fresh
  · show s1.pad = true → _
    rw [hF.slack, hpad]; exact h.pad
  · show GValid (s1.node.set _ _)
    rw [hnode]
    refine ⟨fun c g q hc => ?_, fun c g q hc => ?_, fun c g q hc => ?_⟩ <;>
      (simp only [Graph.set] at hc; split at hc)
    · cases hc; exact hkey q
    · exact h.valid.key c g q hc
    · cases hc; exact hnum q
    · exact h.valid.num c g q hc
    · cases hc; exact hstr q
    · exact h.valid.str c g q hc
  · intro c g raw hc hg hr
    have hc : upd s1.tail (rootOf st x) tl c = true := hc
    have hg : (s1.node.set (rootOf st x) gn') c = some g := hg
    rw [hnode] at hg
    by_cases e : c = rootOf st x
    · rw [e, upd_same] at hc
      simp only [Graph.set, e, if_true] at hg; cases hg
      rw [e]; exact htl hc raw hr
    · rw [upd_ne _ _ e, htail] at hc
      simp only [Graph.set, e, if_false] at hg
      exact (h.tail c g raw hc hg hr).frame h.inv hg hr (hF.weaken (fun _ h => h) (fun _ h => h) hB) e
  · intro c R hc hd
    have hd : (if c = rootOf st x then s1.uses (rootOf st x) R || decide (R = A) else s1.dep c R) = false := hd
    have hc : ((s1.node.set (rootOf st x) gn') c).isSome := hc
    rw [hnode] at hc
    by_cases e : c = rootOf st x
    · rw [if_pos e, huses] at hd
      simp only [Bool.or_eq_false_iff, decide_eq_false_iff_not] at hd
      cases hg : s.node c with
      | some g =>
        have : s.dep c R = false := by
          have := hd.1; rw [← e] at this; simpa [Store.uses, hg] using this
        exact Clean.next (k := tkit st st' A v (fun _ => False) b s.scrOK) h.inv (by rw [hg]; rfl) (h.dep c R (by rw [hg]; rfl) this)
          ht.mid ht.pers fun b off hq => Ofs.ne hq hd.2
      | none =>
        have hn : st.nodes c = none := by
          cases x with
          | none => exact h.inv.ok.nodes c (by rw [e]; exact Nat.le_refl _)
          | some a =>
            have := (h.hnd _ _ hv).2 a rfl
            rw [e] at hg; rw [show s.node a = none from hg] at this; cases this
        exact Clean.fresh (k := tkit st st' A v (fun _ => False) b s.scrOK) hn ht.mid hd.2 fun b off hq => Ofs.ne hq hd.2
    · rw [if_neg e, hdep] at hd
      simp only [Graph.set, e, if_false] at hc
      obtain ⟨g, hg⟩ := Option.isSome_iff_exists.1 hc
      exact (h.dep c R hc hd).keep h.inv hc (hF.nodes c (h.inv.lt hg) e) ht.pers
  · show (s1.seen.nodes _).Below st'
    rw [hseen]
    exact (h.seen.frame hF).nodes fun c e => hI.lt (a := c) (gn := gn') (by subst e; simp [Graph.set])

/-- Nothing was written but the scratch string. -/
theorem WP.kept {A : Nat} {b : Bool} {B : Addr → Prop} (h : WP st P s) (ht : Trace st st' A v b s.scrOK)
    (hk : Kept B st st' P s.node) (hB : ∀ b, B b → CacheB st b) : WP st' P (s.use b A) := by
  have hscr := h.scr_trace ht hk.frame.na hk.frame.allocs hk.cok
  have hF := hk.frame
  have hs : ∀ s1 : Store, ScrOK st' s1 → s1 = { s with scr := s1.scr } → WP st' P s1 := by
    intro s1 hscr he
    rw [he] at hscr ⊢
    exact {
      inv := hk.inv
      hnd := fun v y hv => by
        obtain ⟨h1, h2⟩ := h.hnd v y hv
        exact ⟨by rw [hF.vals v (h.inv.ok.val_lt h1) (fun h => h)]; exact h1, h2⟩
      live := by rw [hF.allocs]; exact h.live
      fresh := by rw [hF.allocs, hF.na]; exact h.fresh
      pad := by rw [hF.slack]; exact h.pad
      valid := h.valid
      tail := fun a gn raw ht hg hv => (h.tail a gn raw ht hg hv).frame h.inv hg hv (hF.weaken (fun _ h => h) (fun _ h => h) hB) (fun h => h)
      dep := fun a R ha hd => by
        obtain ⟨gn, hg⟩ := Option.isSome_iff_exists.1 ha
        exact (h.dep a R ha hd).keep h.inv ha (hF.nodes a (h.inv.lt hg) (fun h => h)) ht.pers
      scr := hscr.1
      scr0 := hscr.2
      seen := h.seen.frame hF }
  exact hs _ hscr (by unfold Store.use; split <;> rfl)

end ZJ
