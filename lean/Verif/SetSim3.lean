import Verif.SetSim2

/-
The checked setters of strings and numbers (zzzjson.h:2227-2457).
-/

set_option linter.unusedSimpArgs false

namespace ZJ

section
variable {st st1 st' : St} {P P' : Addr → Prop} {G : Graph} {v A : Addr} {x : Option Addr} {gv : GVal}
  {t : Json} {p : SPtr} {s : Bytes}

/-- What a successful setter did, seen from the state `st` before the call: the node of
the handle has the value `gv` (document `t`); of the old memory nothing else changed
except the byte blocks of `B`; documents now also rely on the byte blocks of `P'`. -/
structure SetTo (B : Addr → Prop) (st st' : St) (P P' : Addr → Prop) (G : Graph) (v : Addr)
    (x : Option Addr) (A : Nat) (gv : GVal) (t : Json) : Prop where
  inv : Inv st' P' (G.set (rootOf st x) ((baseNode G x).put gv))
  doc : Unf (G.set (rootOf st x) ((baseNode G x).put gv)) (rootOf st x) t
  vals : st'.vals v = some ⟨some (rootOf st x), A⟩
  pin : ∀ b, P b → P' b
  new : ∀ b, P' b → P b ∨ st.nb ≤ b
  frame : Frame (· = rootOf st x) (· = v) B st st'
  cok : CacheOK st → CacheOK st'

/-- What a rejecting setter did: nothing, except that the scratch string may have been
filled (`B`). -/
structure Kept (B : Addr → Prop) (st st' : St) (P : Addr → Prop) (G : Graph) : Prop where
  inv : Inv st' P G
  frame : Frame (fun _ => False) (fun _ => False) B st st'
  cok : CacheOK st → CacheOK st'

theorem Stored.setTo (h : Stored st st' P G v x A gv t) (ho : StOK st) :
    SetTo (fun _ => False) st st' P P G v x A gv t :=
  ⟨h.inv, h.doc, h.vals, fun _ h => h, fun _ h => .inl h, h.frame,
    fun hc => hc.frame ho h.frame h.cache⟩

theorem Kept.refl (hI : Inv st P G) {B} : Kept B st st P G := ⟨hI, .refl _, id⟩

theorem Kept.setTo {B : Addr → Prop} (hk : Kept B st st1 P G) (hnn : st1.nn = st.nn)
    (h : SetTo (fun _ => False) st1 st' P P' G v x A gv t) :
    SetTo B st st' P P' G v x A gv t := by
  have hr : rootOf st1 x = rootOf st x := by simp [rootOf, hnn]
  obtain ⟨h1, h2, h3, h4, h5, h6, h7⟩ := h
  rw [hr] at h1 h2 h3 h6
  refine ⟨h1, h2, h3, h4, fun b hb => ?_, ?_, fun hc => h7 (hk.cok hc)⟩
  · have := hk.frame.nb
    rcases h5 b hb with h | h
    · exact .inl h
    · exact .inr (by omega)
  · exact (hk.frame.weaken (fun _ h => h.elim) (fun _ h => h.elim) (fun _ h => h)).trans h6
      (fun _ _ h => h) (fun _ _ h => h) (fun _ _ h => h.elim)

theorem Filled.kept {z : ZStr} (h : Filled st st' P G z s) : Kept (CacheB st) st st' P G :=
  ⟨h.inv, h.frame, fun _ => h.cok⟩

theorem StrAt.text {gv : GVal} (h : StrAt st P p gv.text) (hl : gv.isLit = false) : TextAt st P p gv :=
  ⟨h, fun e => by rw [hl] at e; cases e⟩

/-- Storing a pointer to the text of the caller. -/
theorem storeFast_run (hI : Inv st P G) (hv : st.vals v = some ⟨x, A⟩)
    (hx : ∀ a, x = some a → (G a).isSome) (hs : gv.isCon = false) (hl : gv.isLit = false)
    (hp : StrAt st P p gv.text) :
    ∃ st', setScalar v gv.type p gv.text.length st = .ok ((), st') ∧
      SetTo (fun _ => False) st st' P P G v x A gv gv.doc := by
  obtain ⟨st', e, h⟩ := setScalar_run hI hv hx hs (hp.text hl)
  exact ⟨st', e, h.setTo hI.ok⟩

/-- Storing a text that was just written into a fresh block. -/
theorem storeFresh_run (hI : Inv st P G) (hv : st.vals v = some ⟨x, A⟩)
    (hx : ∀ a, x = some a → (G a).isSome) (hs : gv.isCon = false) (hl : gv.isLit = false)
    {sz : Nat} {d r : Bytes} (hd : d = gv.text ++ r) (hsz : d.length ≤ sz) :
    ∃ st', setScalar v gv.type (.buf st.nb 0) gv.text.length (st.addB A sz d) = .ok ((), st') ∧
      SetTo (fun _ => False) st st' P (fun b => P b ∨ b = st.nb) G v x A gv gv.doc := by
  have hI' := hI.addB (A := A) (sz := sz) (d := d) hsz
  have hp : StrAt (st.addB A sz d) (fun b => P b ∨ b = st.nb) (.buf st.nb 0) gv.text :=
    ⟨.inr rfl, _, r, by simp; rfl, by simp [hd]⟩
  obtain ⟨st', e, h⟩ := setScalar_run (v := v) (A := A) (x := x) hI' hv hx hs (hp.text hl)
  refine ⟨st', e, h.inv, h.doc, h.vals, fun _ h => .inl h, ?_, addB_frame.frame h.frame, ?_⟩
  · rintro b (h | rfl)
    · exact .inl h
    · exact .inr (Nat.le_refl _)
  · intro hc
    exact (hc.frame hI.ok addB_frame.1 rfl).frame hI'.ok h.frame h.cache

/-- Storing a copy of the text of the caller. -/
theorem storeDup_run (hI : Inv st P G) (hv : st.vals v = some ⟨x, A⟩)
    (hx : ∀ a, x = some a → (G a).isSome) (hs : gv.isCon = false) (hl : gv.isLit = false)
    (hp : Reads st p gv.text) :
    ∃ st', (do
        let s ← dup (← rdVal v).a p gv.text.length
        setScalar v gv.type s gv.text.length : M Unit) st = .ok ((), st') ∧
      SetTo (fun _ => False) st st' P (fun b => P b ∨ b = st.nb) G v x A gv gv.doc := by
  have ha : st.allocs A = true := hI.ok.live v _ hv
  obtain ⟨st', e, h⟩ := storeFresh_run (r := []) (sz := gv.text.length) hI hv hx hs hl
    (List.append_nil _).symm (Nat.le_refl _)
  refine ⟨st', ?_, h⟩
  mstep rdVal_run hv
  have : dup A p gv.text.length st = .ok (.buf st.nb 0, st.addB A gv.text.length gv.text) := by
    unfold dup
    mstep hp
    mstep newBuf_run ha (Nat.le_refl _)
    rfl
  mstep this
  exact e

/-! ### C strings -/

theorem setStrFast_run (hI : Inv st P G) (hv : st.vals v = some ⟨x, A⟩)
    (hx : ∀ a, x = some a → (G a).isSome) (hs : CStr st p s) (hP : InP P p) :
    (IsSetBody s ∧ ∃ st', setStrFast v p st = .ok (true, st') ∧
      SetTo (fun _ => False) st st' P P G v x A (.str s) (.str s)) ∨
    (¬ IsSetBody s ∧ setStrFast v p st = .ok (false, st)) := by
  rcases checkStrAt_run hs with ⟨h, e⟩ | ⟨h, e⟩
  · refine .inl ⟨h, ?_⟩
    obtain ⟨st', e', h'⟩ := storeFast_run (gv := .str s) hI hv hx rfl rfl (hs.inP hP)
    refine ⟨st', ?_, h'⟩
    unfold setStrFast; mstep e; mstep e'; rfl
  · refine .inr ⟨h, ?_⟩
    unfold setStrFast; mstep e; rfl

theorem setNumStrFast_run (hI : Inv st P G) (hv : st.vals v = some ⟨x, A⟩)
    (hx : ∀ a, x = some a → (G a).isSome) (hs : CStr st p s) (hP : InP P p) :
    (IsNum s ∧ ∃ st', setNumStrFast v p st = .ok (true, st') ∧
      SetTo (fun _ => False) st st' P P G v x A (.num s) (.num s)) ∨
    (¬ IsNum s ∧ setNumStrFast v p st = .ok (false, st)) := by
  rcases checkNumAt_run hs with ⟨h, e⟩ | ⟨h, e⟩
  · refine .inl ⟨h, ?_⟩
    obtain ⟨st', e', h'⟩ := storeFast_run (gv := .num s) hI hv hx rfl rfl (hs.inP hP)
    refine ⟨st', ?_, h'⟩
    unfold setNumStrFast; mstep e; mstep e'; rfl
  · refine .inr ⟨h, ?_⟩
    unfold setNumStrFast; mstep e; rfl

theorem bind_split {α β} {a : M α} {f : α → M Unit} {k : Unit → M β} {st st' : St} {r}
    (h : (a >>= f) st = .ok ((), st')) (h2 : k () st' = r) :
    (a >>= fun y => f y >>= k) st = r := by
  rw [M.bind_run] at h ⊢
  cases ha : a st with
  | ok q =>
    obtain ⟨y, st1⟩ := q
    rw [ha] at h
    simp only at h ⊢
    exact (M.bind_ok h).trans h2
  | ub u => rw [ha] at h; cases h
  | timeout => rw [ha] at h; cases h

theorem setStr_run (hI : Inv st P G) (hv : st.vals v = some ⟨x, A⟩)
    (hx : ∀ a, x = some a → (G a).isSome) (hs : CStr st p s) :
    (IsSetBody s ∧ ∃ st', setStr v p st = .ok (true, st') ∧
      SetTo (fun _ => False) st st' P (fun b => P b ∨ b = st.nb) G v x A (.str s) (.str s)) ∨
    (¬ IsSetBody s ∧ setStr v p st = .ok (false, st)) := by
  rcases checkStrAt_run hs with ⟨h, e⟩ | ⟨h, e⟩
  · refine .inl ⟨h, ?_⟩
    obtain ⟨st', e', h'⟩ := storeDup_run (gv := .str s) hI hv hx rfl rfl (hs.reads hI.ok)
    refine ⟨st', ?_, h'⟩
    unfold setStr; mstep e
    have e2 := (M.bind_ok (rdVal_run hv)).symm.trans e'
    mstep rdVal_run hv
    exact bind_split e2 rfl
  · refine .inr ⟨h, ?_⟩
    unfold setStr; mstep e; rfl

theorem setNumStr_run (hI : Inv st P G) (hv : st.vals v = some ⟨x, A⟩)
    (hx : ∀ a, x = some a → (G a).isSome) (hs : CStr st p s) :
    (IsNum s ∧ ∃ st', setNumStr v p st = .ok (true, st') ∧
      SetTo (fun _ => False) st st' P (fun b => P b ∨ b = st.nb) G v x A (.num s) (.num s)) ∨
    (¬ IsNum s ∧ setNumStr v p st = .ok (false, st)) := by
  rcases checkNumAt_run hs with ⟨h, e⟩ | ⟨h, e⟩
  · refine .inl ⟨h, ?_⟩
    obtain ⟨st', e', h'⟩ := storeDup_run (gv := .num s) hI hv hx rfl rfl (hs.reads hI.ok)
    refine ⟨st', ?_, h'⟩
    unfold setNumStr; mstep e
    have e2 := (M.bind_ok (rdVal_run hv)).symm.trans e'
    mstep rdVal_run hv
    exact bind_split e2 rfl
  · refine .inr ⟨h, ?_⟩
    unfold setNumStr; mstep e; rfl

/-! ### Length variants -/

/-- The computation allocates no nodes and no handles and changes none. -/
def KeepsN {α} (m : M α) : Prop := ∀ st a st', m st = .ok (a, st') →
  st'.nn = st.nn ∧ st'.nv = st.nv ∧ st'.nodes = st.nodes ∧ st'.vals = st.vals

theorem KeepsN.bind {α β} {m : M α} {f : α → M β} (h : KeepsN m) (h' : ∀ a, KeepsN (f a)) :
    KeepsN (m >>= f) := by
  intro st b st' e
  rw [M.bind_run] at e
  cases hm : m st with
  | ok q =>
    obtain ⟨y, st1⟩ := q
    rw [hm] at e
    obtain ⟨a1, a2, a3, a4⟩ := h _ _ _ hm
    obtain ⟨b1, b2, b3, b4⟩ := h' _ _ _ _ e
    exact ⟨b1.trans a1, b2.trans a2, b3.trans a3, b4.trans a4⟩
  | ub u => rw [hm] at e; cases e
  | timeout => rw [hm] at e; cases e

theorem KeepsN.pure {α} (a : α) : KeepsN (Pure.pure a : M α) := by
  intro st b st' e; cases e; exact ⟨rfl, rfl, rfl, rfl⟩

theorem KeepsN.lift {α} (r : Res α) : KeepsN (ZJ.lift r) := by
  intro st b st' e
  cases r with
  | ok a => cases e; exact ⟨rfl, rfl, rfl, rfl⟩
  | ub u => cases e
  | timeout => cases e

theorem keeps_newBuf {A sz : Nat} {d : Bytes} : KeepsN (newBuf A sz d) := by
  refine .bind ?_ fun _ => ?_
  · intro st b st' e
    unfold request at e
    split at e <;> cases e
    exact ⟨rfl, rfl, rfl, rfl⟩
  · intro st b st' e
    split at e <;> cases e
    exact ⟨rfl, rfl, rfl, rfl⟩

theorem keeps_newString {A n : Nat} : KeepsN (newString A n) := by
  refine .bind ?_ fun _ => ?_
  · intro st b st' e
    unfold request at e
    split at e <;> cases e
    exact ⟨rfl, rfl, rfl, rfl⟩
  · intro st b st' e
    cases e
    exact ⟨rfl, rfl, rfl, rfl⟩

theorem keeps_cfg : KeepsN getCfg := by
  intro st b st' e
  cases e
  exact ⟨rfl, rfl, rfl, rfl⟩

theorem keeps_touch {z : ZStr} : KeepsN (touchStr z) := by
  intro st b st' e
  unfold touchStr at e
  split at e <;> cases e
  exact ⟨rfl, rfl, rfl, rfl⟩

theorem keeps_poke {z : ZStr} {s : Bytes} : KeepsN (pokeStr z s) := by
  intro st b st' e
  unfold pokeStr at e
  split at e
  · split at e <;> cases e
    exact ⟨rfl, rfl, rfl, rfl⟩
  · cases e

theorem keeps_readN {p : SPtr} {n : Nat} : KeepsN (readN p n) := by
  intro st b st' e
  have : st' = st := by
    unfold readN at e
    repeat' split at e
    all_goals first | (cases e; rfl) | cases e
  subst this
  exact ⟨rfl, rfl, rfl, rfl⟩

theorem keeps_old {z : ZStr} : KeepsN (fun st => match st.bufs z.data with
        | some b => .ok (b.data.take z.pos, st)
        | none => .ub .wild : M Bytes) := by
  intro st b st' e
  simp only at e
  split at e <;> cases e
  exact ⟨rfl, rfl, rfl, rfl⟩

theorem keeps_appendChar {z : ZStr} {c : Byte} : KeepsN (appendChar z c) := by
  unfold appendChar
  refine keeps_touch.bind fun _ => .bind ?_ fun _ => keeps_poke.bind fun _ => .pure _
  split
  · exact keeps_cfg.bind fun _ => keeps_old.bind fun _ => keeps_newBuf.bind fun _ => .pure _
  · exact .pure _

theorem keeps_appendStr {z : ZStr} {p : SPtr} {n : Nat} : KeepsN (appendStr z p n) := by
  unfold appendStr appendBytes
  refine keeps_readN.bind fun _ => keeps_touch.bind fun _ => .bind ?_ fun _ => keeps_poke.bind fun _ => .pure _
  split
  · exact keeps_cfg.bind fun _ => (KeepsN.lift _).bind fun _ => keeps_old.bind fun _ => keeps_newBuf.bind fun _ => .pure _
  · exact .pure _

theorem keeps_fillCache {len : Nat} : KeepsN (fillCache A p len) := by
  unfold fillCache
  refine .bind ?_ fun c => .bind ?_ fun _ => keeps_appendStr.bind fun _ => keeps_appendChar.bind fun _ =>
    .bind ?_ fun _ => .pure _
  · intro st b st' e; cases e; exact ⟨rfl, rfl, rfl, rfl⟩
  · cases c with
    | none => exact keeps_cfg.bind fun _ => keeps_newString
    | some z => exact keeps_touch.bind fun _ => .pure _
  · intro st b st' e; cases e; exact ⟨rfl, rfl, rfl, rfl⟩

theorem keeps_checkStrAt : KeepsN (checkStrAt p) := by
  unfold checkStrAt
  refine .bind ?_ fun _ => .lift _
  intro st b st' e
  have : st' = st := by
    unfold view at e
    repeat' split at e
    all_goals first | (cases e; rfl) | cases e
  subst this
  exact ⟨rfl, rfl, rfl, rfl⟩

theorem keeps_checkNumAt : KeepsN (checkNumAt p) := by
  unfold checkNumAt
  refine .bind ?_ fun _ => .lift _
  intro st b st' e
  have : st' = st := by
    unfold view at e
    repeat' split at e
    all_goals first | (cases e; rfl) | cases e
  subst this
  exact ⟨rfl, rfl, rfl, rfl⟩

theorem keeps_checkStrLenAt {len : Nat} : KeepsN (checkStrLenAt A p len) := by
  unfold checkStrLenAt
  refine keeps_fillCache.bind fun _ => keeps_checkStrAt.bind fun o => ?_
  cases o <;> exact .pure _

theorem keeps_checkNumLenAt {len : Nat} : KeepsN (checkNumLenAt A p len) := by
  unfold checkNumLenAt
  refine keeps_fillCache.bind fun _ => keeps_checkNumAt.bind fun o => ?_
  cases o <;> exact .pure _

theorem reads_filled (hI : Inv st P G) {z : ZStr} {s'} (hF : Filled st st' P G z s') (hp : Reads st p s)
    (hn : NotCache st p) : Reads st' p s := by
  have hs : StrAt st (fun b => (st.bufs b).isSome ∧ ¬ CacheB st b) p s := hp.strAt (by
    intro b off hb
    refine ⟨?_, ?_⟩
    · unfold Reads readN at hp
      simp only [hb] at hp
      split at hp
      · rename_i h; simp [h]
      · cases hp
    · rintro ⟨z, hz, rfl⟩
      exact hn _ _ _ hb hz rfl)
  refine (hs.mono (P' := fun _ => True) (fun _ _ => trivial) fun b hb => ?_).reads hF.inv.ok
  obtain ⟨bf, hbf⟩ := Option.isSome_iff_exists.1 hb.1
  exact hF.frame.bufs b (hI.ok.buf_lt hbf) hb.2

theorem strAt_filled (hI : Inv st P G) {z : ZStr} {s'} (hF : Filled st st' P G z s')
    (hp : StrAt st P p s) : StrAt st' P p s := by
  refine hp.mono (fun _ h => h) fun b hb => ?_
  obtain ⟨h1, h2⟩ := hI.pin b hb
  obtain ⟨bf, hbf⟩ := Option.isSome_iff_exists.1 h1
  refine hF.frame.bufs b (hI.ok.buf_lt hbf) ?_
  rintro ⟨z, hz, rfl⟩
  exact (h2 z hz).2 rfl

theorem setStrLenFast_run (hI : Inv st P G) (hc : CacheOK st) (hv : st.vals v = some ⟨x, A⟩)
    (hx : ∀ a, x = some a → (G a).isSome) (hs : Reads st p s) (hP : InP P p) :
    (IsSetBody s ∧ ∃ st', setStrLenFast v p s.length st = .ok (true, st') ∧
      SetTo (CacheB st) st st' P P G v x A (.str s) (.str s)) ∨
    (¬ IsSetBody s ∧ ∃ st', setStrLenFast v p s.length st = .ok (false, st') ∧
      Kept (CacheB st) st st' P G) := by
  obtain ⟨st1, z, r, e, hr, hF⟩ := checkStrLenAt_run hI hc (hI.ok.live v _ hv) hs
  obtain ⟨k1, k2, k3, k4⟩ := keeps_checkStrLenAt _ _ _ e
  cases r with
  | true =>
    obtain ⟨st', e', h'⟩ := storeFast_run (gv := .str s) hF.inv (by rw [k4]; exact hv) hx rfl rfl
      (strAt_filled hI hF (hs.strAt hP))
    refine .inl ⟨hr.1 rfl, st', ?_, hF.kept.setTo k1 h'⟩
    unfold setStrLenFast; mstep rdVal_run hv; mstep e; mstep e'; rfl
  | false =>
    refine .inr ⟨fun h => (by cases hr.2 h), st1, ?_, hF.kept⟩
    unfold setStrLenFast; mstep rdVal_run hv; mstep e; rfl

theorem setNumStrLenFast_run (hI : Inv st P G) (hc : CacheOK st) (hv : st.vals v = some ⟨x, A⟩)
    (hx : ∀ a, x = some a → (G a).isSome) (hs : Reads st p s) (hP : InP P p) :
    (IsNum s ∧ ∃ st', setNumStrLenFast v p s.length st = .ok (true, st') ∧
      SetTo (CacheB st) st st' P P G v x A (.num s) (.num s)) ∨
    (¬ IsNum s ∧ ∃ st', setNumStrLenFast v p s.length st = .ok (false, st') ∧
      Kept (CacheB st) st st' P G) := by
  obtain ⟨st1, z, r, e, hr, hF⟩ := checkNumLenAt_run hI hc (hI.ok.live v _ hv) hs
  obtain ⟨k1, k2, k3, k4⟩ := keeps_checkNumLenAt _ _ _ e
  cases r with
  | true =>
    obtain ⟨st', e', h'⟩ := storeFast_run (gv := .num s) hF.inv (by rw [k4]; exact hv) hx rfl rfl
      (strAt_filled hI hF (hs.strAt hP))
    refine .inl ⟨hr.1 rfl, st', ?_, hF.kept.setTo k1 h'⟩
    unfold setNumStrLenFast; mstep rdVal_run hv; mstep e; mstep e'; rfl
  | false =>
    refine .inr ⟨fun h => (by cases hr.2 h), st1, ?_, hF.kept⟩
    unfold setNumStrLenFast; mstep rdVal_run hv; mstep e; rfl

theorem setStrLen_run (hI : Inv st P G) (hc : CacheOK st) (hv : st.vals v = some ⟨x, A⟩)
    (hx : ∀ a, x = some a → (G a).isSome) (hs : Reads st p s) (hn : NotCache st p) :
    (IsSetBody s ∧ ∃ st' P', setStrLen v p s.length st = .ok (true, st') ∧
      SetTo (CacheB st) st st' P P' G v x A (.str s) (.str s)) ∨
    (¬ IsSetBody s ∧ ∃ st', setStrLen v p s.length st = .ok (false, st') ∧
      Kept (CacheB st) st st' P G) := by
  obtain ⟨st1, z, r, e, hr, hF⟩ := checkStrLenAt_run hI hc (hI.ok.live v _ hv) hs
  obtain ⟨k1, k2, k3, k4⟩ := keeps_checkStrLenAt _ _ _ e
  have hv1 : st1.vals v = some ⟨x, A⟩ := by rw [k4]; exact hv
  cases r with
  | true =>
    obtain ⟨st', e', h'⟩ := storeDup_run (gv := .str s) hF.inv hv1 hx rfl rfl
      (reads_filled hI hF hs hn)
    refine .inl ⟨hr.1 rfl, st', _, ?_, hF.kept.setTo k1 h'⟩
    unfold setStrLen; mstep rdVal_run hv; mstep e
    have e2 := (M.bind_ok (rdVal_run hv1)).symm.trans e'
    mstep rdVal_run hv1
    exact bind_split e2 rfl
  | false =>
    refine .inr ⟨fun h => (by cases hr.2 h), st1, ?_, hF.kept⟩
    unfold setStrLen; mstep rdVal_run hv; mstep e; rfl

theorem setNumStrLen_run (hI : Inv st P G) (hc : CacheOK st) (hv : st.vals v = some ⟨x, A⟩)
    (hx : ∀ a, x = some a → (G a).isSome) (hs : Reads st p s) (hn : NotCache st p) :
    (IsNum s ∧ ∃ st' P', setNumStrLen v p s.length st = .ok (true, st') ∧
      SetTo (CacheB st) st st' P P' G v x A (.num s) (.num s)) ∨
    (¬ IsNum s ∧ ∃ st', setNumStrLen v p s.length st = .ok (false, st') ∧
      Kept (CacheB st) st st' P G) := by
  obtain ⟨st1, z, r, e, hr, hF⟩ := checkNumLenAt_run hI hc (hI.ok.live v _ hv) hs
  obtain ⟨k1, k2, k3, k4⟩ := keeps_checkNumLenAt _ _ _ e
  have hv1 : st1.vals v = some ⟨x, A⟩ := by rw [k4]; exact hv
  cases r with
  | true =>
    obtain ⟨st', e', h'⟩ := storeDup_run (gv := .num s) hF.inv hv1 hx rfl rfl
      (reads_filled hI hF hs hn)
    refine .inl ⟨hr.1 rfl, st', _, ?_, hF.kept.setTo k1 h'⟩
    unfold setNumStrLen; mstep rdVal_run hv; mstep e
    have e2 := (M.bind_ok (rdVal_run hv1)).symm.trans e'
    mstep rdVal_run hv1
    exact bind_split e2 rfl
  | false =>
    refine .inr ⟨fun h => (by cases hr.2 h), st1, ?_, hF.kept⟩
    unfold setNumStrLen; mstep rdVal_run hv; mstep e; rfl

/-! ### Escaping setters -/

theorem escapeAt_run (ha : st.allocs A = true) (hs : CStr st p s) :
    escapeAt A p st = .ok (.buf st.nb 0, st.addB A ((escBytes s).length + 1) (escBytes s ++ [0])) := by
  obtain ⟨h0, r, lim, hv⟩ := hs
  unfold escapeAt
  mstep hv
  have := escapeStr_eq (r := r) h0
  simp only [this]
  mstep lift_ok _
  mstep newBuf_run ha (by simp)
  rfl

theorem escapeLenAt_run (ha : st.allocs A = true) (hs : StrAt st P p s) :
    escapeLenAt A p s.length st = .ok (.buf st.nb 0, st.addB A ((escBytes s).length + 1) (escBytes s ++ [0])) := by
  obtain ⟨r, lim, hv⟩ := hs.view
  unfold escapeLenAt
  mstep hv
  have := escapeStrLen_eq s r
  simp only [this]
  mstep lift_ok _
  mstep newBuf_run ha (by simp)
  rfl

theorem escBytes_cstr : CStr (st.addB A ((escBytes s).length + 1) (escBytes s ++ [0])) (.buf st.nb 0) (escBytes s) :=
  ⟨(escBytes_set s).no_nul, [], _, by simp [view]; rfl⟩

theorem SetTo.addB {sz : Nat} {d : Bytes} (hI : Inv st P G)
    (h : SetTo (fun _ => False) (st.addB A sz d) st' (fun b => P b ∨ b = st.nb) P' G v x A gv t) :
    SetTo (fun _ => False) st st' P P' G v x A gv t where
  inv := h.inv
  doc := h.doc
  vals := h.vals
  pin b hb := h.pin b (.inl hb)
  new b hb := by
    rcases h.new b hb with (h | h) | h
    · exact .inl h
    · exact .inr (by omega)
    · simp at h; exact .inr (by omega)
  frame := addB_frame.frame h.frame
  cok hc := h.cok (hc.frame hI.ok addB_frame.1 rfl)

/-- The escaping setters always succeed. -/
theorem setStrEscape_run (hI : Inv st P G) (hv : st.vals v = some ⟨x, A⟩)
    (hx : ∀ a, x = some a → (G a).isSome) (hs : CStr st p s) :
    ∃ st', setStrEscape v p st = .ok (true, st') ∧
      SetTo (fun _ => False) st st' P (fun b => P b ∨ b = st.nb) G v x A (.str (escBytes s)) (.str (escBytes s)) := by
  have ha := hI.ok.live v _ hv
  have hI' := hI.addB (A := A) (sz := (escBytes s).length + 1) (d := escBytes s ++ [0]) (by simp)
  rcases setStrFast_run (v := v) (A := A) (x := x) hI' hv hx escBytes_cstr
    (by intro b off h; cases h; exact .inr rfl) with ⟨_, st', e, h⟩ | ⟨hn, _⟩
  · refine ⟨st', ?_, h.addB hI⟩
    unfold setStrEscape
    mstep rdVal_run hv
    mstep escapeAt_run ha hs
    exact e
  · exact absurd (escBytes_set s) hn

theorem setStrLenEscape_run (hI : Inv st P G) (hv : st.vals v = some ⟨x, A⟩)
    (hx : ∀ a, x = some a → (G a).isSome) (hs : Reads st p s) :
    ∃ st', setStrLenEscape v p s.length st = .ok (true, st') ∧
      SetTo (fun _ => False) st st' P (fun b => P b ∨ b = st.nb) G v x A (.str (escBytes s)) (.str (escBytes s)) := by
  have ha := hI.ok.live v _ hv
  have hI' := hI.addB (A := A) (sz := (escBytes s).length + 1) (d := escBytes s ++ [0]) (by simp)
  rcases setStrFast_run (v := v) (A := A) (x := x) hI' hv hx escBytes_cstr
    (by intro b off h; cases h; exact .inr rfl) with ⟨_, st', e, h⟩ | ⟨hn, _⟩
  · refine ⟨st', ?_, h.addB hI⟩
    unfold setStrLenEscape
    mstep rdVal_run hv
    mstep escapeLenAt_run ha (hs.strAt (P := fun _ => True) (fun _ _ _ => trivial))
    exact e
  · exact absurd (escBytes_set s) hn

end

end ZJ
