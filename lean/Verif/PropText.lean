import Verif.Hops

/-
C50: the texts the API returns stay as they are.

`zj_GetStr`, `zj_GetUnEscapeStr`, `zj_GetNumStr`, `zj_GetKey`, `zj_GetUnEscapeKey` and
`zj_Stringify` return a pointer to memory of the allocator of the handle; `zj_GetStrFast`,
`zj_GetNumFast` and `zj_GetKeyFast` return a pointer into the text the document was made from.
-/

set_option linter.unusedSimpArgs false
set_option linter.unusedVariables false

namespace ZJ

/-! ### A block that nobody writes to -/

/-- Block `b` holds `x`, or the allocator it came from has been released. -/
structure Frozen (b : Addr) (x : Buf) (st : St) : Prop where
  lt : b < st.nb
  same : st.bufs b = some x ∨ ∃ A, x.owner = some A ∧ A < st.na ∧ st.allocs A = false
  cache : ∀ z, st.cache = some z → z.data ≠ b
  fresh : ∀ A, st.na ≤ A → st.allocs A = false

variable {Q : Nat → Prop} {K : Bytes → Prop} {N : Nat}

theorem Frozen.hop {b : Addr} {x : Buf} {st st' : St} (hN : b < N) (h : Frozen b x st) (hs : Hop Q K N st st') : Frozen b x st' := by
  obtain ⟨h1, h2, h3, h4⟩ := h
  have hne : b ≠ st.nb := by omega
  cases hs with
  | buf => exact ⟨Nat.lt_succ_of_lt h1, by simpa [St.addB, upd, hne] using h2, h3, h4⟩
  | str => exact ⟨Nat.lt_succ_of_lt h1, by simpa [St.addS, upd, hne] using h2, h3, h4⟩
  | caller => exact ⟨Nat.lt_succ_of_lt h1, by simpa [St.addC, upd, hne] using h2, h3, h4⟩
  | @setBuf c y d hw hc hd =>
    have : b ≠ c := by
      rintro rfl
      rcases hw with hw | ⟨z, hz, e⟩
      · omega
      · exact h3 z hz e
    exact ⟨h1, by simpa [upd, this] using h2, h3, h4⟩
  | @free c hc =>
    have : b ≠ c := by omega
    exact ⟨h1, by simpa [St.clobber, upd, this] using h2, h3, h4⟩
  | @cache z hz =>
    refine ⟨h1, h2, fun z' e => ?_, h4⟩
    cases e
    rcases hz with hz | ⟨z0, e0, e⟩
    · omega
    · rw [← e]; exact h3 z0 e0
  | new =>
    refine ⟨h1, ?_, h3, fun A hA => ?_⟩
    · rcases h2 with h2 | ⟨A, e1, e2, e3⟩
      · exact .inl h2
      · have : A ≠ st.na := by omega
        exact .inr ⟨A, e1, Nat.lt_succ_of_lt e2, by simpa [upd, this] using e3⟩
    · have hA' : st.na + 1 ≤ A := hA
      have : A ≠ st.na := by omega
      simpa [upd, this] using h4 A (by omega)
  | @release R _ hR =>
    have hR' : R < st.na := Decidable.byContradiction fun h => by
      have := h4 R (by omega)
      rw [hR] at this; cases this
    refine ⟨h1, ?_, h3, fun A hA => ?_⟩
    · rcases h2 with h2 | ⟨A, e1, e2, e3⟩
      · by_cases ho : x.owner = some R
        · exact .inr ⟨R, ho, hR', by simp [St.without, upd]⟩
        · exact .inl (by simp [St.without, h2, ho])
      · refine .inr ⟨A, e1, e2, ?_⟩
        simp only [St.without, upd]
        split <;> first | rfl | exact e3
    · simp only [St.without, upd]
      split
      · rfl
      · exact h4 A hA
  | _ => exact ⟨h1, h2, h3, h4⟩

/-- What holds from the start of the program on. -/
structure Begun (st : St) : Prop where
  cache : ∀ z, st.cache = some z → z.data < st.nb
  bufs : ∀ b, st.nb ≤ b → st.bufs b = none
  fresh : ∀ A, st.na ≤ A → st.allocs A = false

theorem Begun.hop {st st' : St} (h : Begun st) (hs : Hop Q K 0 st st') : Begun st' := by
  obtain ⟨h3, h2, h4⟩ := h
  have hc : ∀ {n}, st.nb ≤ n → ∀ z, st.cache = some z → z.data < n := fun hn z hz => Nat.lt_of_lt_of_le (h3 z hz) hn
  have hb : ∀ x b, st.nb + 1 ≤ b → upd st.bufs st.nb x b = none := fun x b hb => by
    rw [upd_ne _ _ (by omega)]; exact h2 b (by omega)
  cases hs with
  | buf => exact ⟨hc (Nat.le_succ _), hb _, h4⟩
  | str => exact ⟨hc (Nat.le_succ _), hb _, h4⟩
  | caller => exact ⟨hc (Nat.le_succ _), hb _, h4⟩
  | @setBuf c y d hw hy hd =>
    refine ⟨h3, fun b hb => ?_, h4⟩
    have : b ≠ c := by
      rintro rfl
      rw [h2 b hb] at hy; cases hy
    simpa [upd, this] using h2 b hb
  | @free c _ hc _ =>
    refine ⟨h3, fun b hb => ?_, h4⟩
    simp only [St.clobber, upd]
    split
    · rfl
    · exact h2 b hb
  | @cache z hz =>
    refine ⟨fun z' e => ?_, h2, h4⟩
    cases e
    rcases hz with hz | ⟨z0, e0, e⟩
    · exact hz.2
    · rw [← e]; exact h3 z0 e0
  | new =>
    refine ⟨h3, h2, fun A hA => ?_⟩
    have hA' : st.na + 1 ≤ A := hA
    have : A ≠ st.na := by omega
    simpa [upd, this] using h4 A (by omega)
  | @release R hR =>
    refine ⟨h3, fun b hb => ?_, fun A hA => ?_⟩
    · simp only [St.without, h2 b hb]; rfl
    · simp only [St.without, upd]
      split
      · rfl
      · exact h4 A hA
  | _ => exact ⟨h3, h2, h4⟩

theorem Begun.init (slack : Nat → Nat) : Begun (St.init slack cfg) := ⟨fun _ h => (nomatch h), fun _ _ => rfl, fun _ _ => rfl⟩

/-! ### Where the copies are -/

/-- `m` only looks at the memory. -/
def Quiet {α : Type} (m : M α) : Prop := ∀ st r st', m st = .ok (r, st') → st' = st

/-- Run in a state with `I`, `m` ends with `R`. -/
def Hr {α : Type} (I : St → Prop) (m : M α) (R : α → St → Prop) : Prop := ∀ st r st', I st → m st = .ok (r, st') → R r st'

section
variable {α β : Type} {I : St → Prop} {J : α → St → Prop} {R : β → St → Prop}

theorem quiet_pure (a : α) : Quiet (pure a : M α) := fun st r st' e => by cases e; rfl
theorem quiet_fail (u : UB) : Quiet (fail u : M α) := fun st r st' e => by cases e
theorem quiet_lift (x : Res α) : Quiet (lift x) := fun st r st' e => by
  unfold ZJ.lift at e
  split at e <;> cases e
  rfl
theorem quiet_bind {m : M α} {f : α → M β} (h : Quiet m) (hf : ∀ a, Quiet (f a)) : Quiet (m >>= f) := fun st r st' e => by
  obtain ⟨a, st1, e1, e2⟩ := ok_bind e
  rw [hf a _ _ _ e2, h _ _ _ e1]
theorem quiet_fld (x : Option α) : Quiet (fld x) := by
  cases x
  · exact quiet_fail _
  · exact quiet_pure _
theorem quiet_deref (x : Option Addr) : Quiet (deref x) := by
  cases x
  · exact quiet_fail _
  · exact quiet_pure _
theorem quiet_rdNode (a : Addr) : Quiet (rdNode a) := fun st r st' e => by
  unfold ZJ.rdNode at e
  split at e <;> cases e
  rfl
theorem quiet_rdVal (a : Addr) : Quiet (rdVal a) := fun st r st' e => by
  unfold ZJ.rdVal at e
  split at e <;> cases e
  rfl
theorem quiet_view (p : SPtr) : Quiet (view p) := fun st r st' e => by
  unfold ZJ.view at e
  repeat' split at e
  all_goals cases e
  all_goals rfl
theorem quiet_readN (p : SPtr) (n : Nat) : Quiet (readN p n) := fun st r st' e => by
  unfold ZJ.readN at e
  repeat' split at e
  all_goals cases e
  all_goals rfl
theorem quiet_nType (a : Addr) : Quiet (nType a) := quiet_bind (quiet_rdNode _) fun _ => quiet_fld _
theorem quiet_nKey (a : Addr) : Quiet (nKey a) := quiet_bind (quiet_rdNode _) fun _ => quiet_fld _
theorem quiet_nKeyLen (a : Addr) : Quiet (nKeyLen a) := quiet_bind (quiet_rdNode _) fun _ => quiet_fld _
theorem quiet_nLen (a : Addr) : Quiet (nLen a) := quiet_bind (quiet_rdNode _) fun _ => quiet_fld _
theorem quiet_nNext (a : Addr) : Quiet (nNext a) := quiet_bind (quiet_rdNode _) fun _ => quiet_fld _
theorem quiet_nFather (a : Addr) : Quiet (nFather a) := quiet_bind (quiet_rdNode _) fun _ => quiet_fld _
theorem quiet_nNode (a : Addr) : Quiet (nNode a) := quiet_bind (quiet_rdNode _) fun _ => quiet_bind (quiet_fld _) fun v => by
  cases v
  · exact quiet_pure _
  · exact quiet_fail _
theorem quiet_nStr (a : Addr) : Quiet (nStr a) := quiet_bind (quiet_rdNode _) fun _ => quiet_bind (quiet_fld _) fun v => by
  cases v
  · exact quiet_fail _
  · exact quiet_pure _

theorem hr_pure {a : β} (h : ∀ st, I st → R a st) : Hr I (pure a : M β) R := fun st r st' hI e => by cases e; exact h _ hI
theorem hr_bind {m : M α} {f : α → M β} (h : Hr I m J) (hf : ∀ a, Hr (J a) (f a) R) : Hr I (m >>= f) R := fun st r st' hI e => by
  obtain ⟨a, st1, e1, e2⟩ := ok_bind e
  exact hf a _ _ _ (h _ _ _ hI e1) e2
theorem hr_look {m : M α} {f : α → M β} (h : Quiet m) (hf : ∀ a, Hr I (f a) R) : Hr I (m >>= f) R := fun st r st' hI e => by
  obtain ⟨a, st1, e1, e2⟩ := ok_bind e
  rw [h _ _ _ e1] at e2
  exact hf a _ _ _ hI e2
end

syntax "qt1" : tactic
macro_rules | `(tactic| qt1) => `(tactic| with_reducible first
  | exact quiet_pure _ | exact quiet_lift _ | exact quiet_fld _ | exact quiet_deref _ | exact quiet_rdNode _ | exact quiet_rdVal _
  | exact quiet_view _ | exact quiet_readN _ _ | exact quiet_nType _ | exact quiet_nKey _ | exact quiet_nKeyLen _ | exact quiet_nLen _
  | exact quiet_nNext _ | exact quiet_nFather _ | exact quiet_nNode _ | exact quiet_nStr _)

/-- The data area of `z` is younger than `N` and belongs to allocator `A`. -/
def Grown (N A : Nat) (c : Option ZStr) (z : ZStr) (st : St) : Prop :=
  N ≤ z.data ∧ z.a = A ∧ N ≤ st.nb ∧ (∃ x, st.bufs z.data = some x ∧ x.owner = some A) ∧ st.cache = c

section
variable {A : Nat} {c : Option ZStr}

theorem newBuf_hr {n : Nat} {d : Bytes} : Hr (fun st => N ≤ st.nb ∧ st.cache = c) (newBuf A n d) fun b st =>
    N ≤ b ∧ N ≤ st.nb ∧ (∃ x, st.bufs b = some x ∧ x.owner = some A) ∧ st.cache = c := fun st r st' ⟨hN, hc⟩ e => by
  by_cases h : st.allocs A = true
  · have e := (M.bind_ok (request_run h)).symm.trans e
    dsimp only at e
    split at e <;> cases e
    exact ⟨hN, Nat.le_succ_of_le hN, ⟨_, upd_same .., rfl⟩, hc⟩
  · exact absurd ((M.bind_ub (u := .wild) (by simp [request, h])).symm.trans e) (by simp)

theorem newString_hr {n : Nat} : Hr (fun st => N ≤ st.nb ∧ st.cache = c) (newString A n) (Grown N A c) := fun st r st' ⟨hN, hc⟩ e => by
  by_cases h : st.allocs A = true
  · have e := (M.bind_ok (request_run h)).symm.trans e
    cases e
    exact ⟨hN, rfl, Nat.le_succ_of_le hN, ⟨_, upd_same .., rfl⟩, hc⟩
  · exact absurd ((M.bind_ub (u := .wild) (by simp [request, h])).symm.trans e) (by simp)

theorem poke_hr {z : ZStr} {s : Bytes} : Hr (Grown N A c z) (pokeStr z s) fun _ => Grown N A c z :=
    fun st r st' ⟨h1, h2, h3, ⟨x, h4, h5⟩, h6⟩ e => by
  unfold ZJ.pokeStr at e
  rw [h4] at e
  dsimp only at e
  split at e <;> cases e
  exact ⟨h1, h2, h3, ⟨_, upd_same .., h5⟩, h6⟩

theorem grow_hr {z : ZStr} {n : Nat} {d : Bytes} : Hr (Grown N A c z) (newBuf z.a n d >>= fun d => pure { z with data := d, sizeOf := n })
    (Grown N A c) := fun st r st' ⟨h1, h2, h3, _, h6⟩ e => by
  obtain ⟨b, st1, e1, e2⟩ := ok_bind e
  cases e2
  obtain ⟨g1, g2, g3, g4⟩ := newBuf_hr _ _ _ ⟨h3, h6⟩ e1
  rw [h2] at g3
  exact ⟨g1, h2, g2, g3, g4⟩

theorem quiet_touch (z : ZStr) : Quiet (touchStr z) := fun st r st' e => by
  unfold ZJ.touchStr at e
  split at e <;> cases e
  rfl

theorem quiet_old (z : ZStr) : Quiet (fun st => match st.bufs z.data with
    | some b => .ok (b.data.take z.pos, st)
    | none => .ub .wild : M Bytes) := fun st r st' e => by
  dsimp only at e
  split at e <;> cases e
  rfl

theorem quiet_cfg : Quiet getCfg := fun st r st' e => by cases e; rfl

theorem appendBytes_hr {z : ZStr} {s : Bytes} : Hr (Grown N A c z) (appendBytes z s) (Grown N A c) := by
  unfold ZJ.appendBytes
  refine hr_look (quiet_touch z) fun _ => hr_bind (J := Grown N A c) ?_ fun z1 => hr_bind poke_hr fun _ => hr_pure fun st h => h
  split
  · exact hr_look quiet_cfg fun _ => hr_look (quiet_lift _) fun _ => hr_look (quiet_old z) fun _ => grow_hr
  · exact hr_pure fun st h => h

theorem appendStr_hr {z : ZStr} {p : SPtr} {n : Nat} : Hr (Grown N A c z) (appendStr z p n) (Grown N A c) :=
  hr_look (quiet_readN _ _) fun _ => appendBytes_hr

theorem appendChar_hr {z : ZStr} {b : Byte} : Hr (Grown N A c z) (appendChar z b) (Grown N A c) := by
  unfold ZJ.appendChar
  refine hr_look (quiet_touch z) fun _ => hr_bind (J := Grown N A c) ?_ fun z1 => hr_bind poke_hr fun _ => hr_pure fun st h => h
  split
  · exact hr_look quiet_cfg fun _ => hr_look (quiet_old z) fun _ => grow_hr
  · exact hr_pure fun st h => h

/-- Goes through the text of a function. -/
macro "hrs" : tactic => `(tactic| repeat' (first
  | (with_reducible refine hr_pure fun _ h => ?_; exact h)
  | (with_reducible refine hr_bind appendChar_hr fun _ => ?_)
  | (with_reducible refine hr_bind appendStr_hr fun _ => ?_)
  | (with_reducible refine hr_bind appendBytes_hr fun _ => ?_)
  | (with_reducible refine hr_look (by qt1; done) fun _ => ?_)
  | split))

theorem putValue_hr {z : ZStr} {node : Addr} : Hr (Grown N A c z) (putValue z node) fun r => Grown N A c r.1 := by
  unfold ZJ.putValue; hrs

theorem putKey_hr {z : ZStr} {node : Addr} : Hr (Grown N A c z) (putKey z node) (Grown N A c) := by
  unfold ZJ.putKey; hrs
  exact appendBytes_hr

theorem stringifyLoop_hr (v : Addr) : ∀ F pc node {z : ZStr}, Hr (Grown N A c z) (stringifyLoop v F pc node z) (Grown N A c)
  | 0, _, _, _ => fun st r st' hN e => by cases e
  | F + 1, .head, node, z => by
    have IH := stringifyLoop_hr v F
    unfold stringifyLoop
    refine hr_look (quiet_rdVal _) fun _ => ?_
    split
    · exact hr_pure fun _ h => h
    · refine hr_bind putKey_hr fun _ => hr_bind putValue_hr fun r => ?_
      split <;> exact IH _ _
  | F + 1, .close, node, z => by
    have IH := stringifyLoop_hr v F
    unfold stringifyLoop
    hrs <;> apply IH

/-- The pointer `p` is to a static text, or to a block younger than `N` of allocator `A`. -/
def Issued (N A : Nat) (c : Option ZStr) (p : Option SPtr) (st : St) : Prop :=
  st.cache = c ∧ ∀ b off, p = some (.buf b off) → N ≤ b ∧ ∃ x, st.bufs b = some x ∧ x.owner = some A

theorem hr_val {β : Type} {I : St → Prop} {R : β → St → Prop} {v : Addr} {y : Val} {f : Val → M β} (hI : ∀ st, I st → st.vals v = some y)
    (hf : Hr I (f y) R) : Hr I (rdVal v >>= f) R := fun st r st' h e => by
  have e := (M.bind_ok (rdVal_run (hI st h))).symm.trans e
  exact hf _ _ _ h e

variable {v : Addr} {y : Val}

def Before (N : Nat) (c : Option ZStr) (v : Addr) (y : Val) (st : St) : Prop := N ≤ st.nb ∧ st.cache = c ∧ st.vals v = some y

theorem issued_none {B : Nat} : Hr (Before N c v y) (pure none : M (Option SPtr)) (Issued N B c) :=
  hr_pure fun st h => ⟨h.2.1, fun _ _ e => (nomatch e)⟩

theorem newBuf_issued {B n : Nat} {d : Bytes} : Hr (Before N c v y) (newBuf B n d >>= fun b => pure (some (.buf b 0))) (Issued N B c) :=
    fun st r st' h e => by
  obtain ⟨b, st1, e1, e2⟩ := ok_bind e
  cases e2
  obtain ⟨g1, g2, g3, g4⟩ := newBuf_hr _ _ _ ⟨h.1, h.2.1⟩ e1
  exact ⟨g4, fun b' off e => by cases e; exact ⟨g1, g3⟩⟩

theorem copyOut_issued {B n : Nat} {p : SPtr} : Hr (Before N c v y) (copyOut B p n >>= fun p => pure (some p)) (Issued N B c) :=
    fun st r st' h e => by
  obtain ⟨q, st1, e1, e2⟩ := ok_bind e
  cases e2
  obtain ⟨t, st2, e3, e4⟩ := ok_bind e1
  rw [quiet_readN _ _ _ _ _ e3] at e4
  obtain ⟨b, st3, e5, e6⟩ := ok_bind e4
  cases e6
  obtain ⟨g1, g2, g3, g4⟩ := newBuf_hr _ _ _ ⟨h.1, h.2.1⟩ e5
  exact ⟨g4, fun b' off e => by cases e; exact ⟨g1, g3⟩⟩

theorem stringify_issued {F : Nat} : Hr (Before N c v y) (stringify F v >>= fun p => pure (some p)) (Issued N y.a c) := by
  refine hr_bind (J := fun p => Issued N y.a c (some p)) ?_ fun p => hr_pure fun _ h => h
  unfold ZJ.stringify
  refine hr_val (fun st h => h.2.2) ?_
  dsimp only
  split
  · exact hr_pure fun st h => ⟨h.2.1, fun _ _ e => (nomatch e)⟩
  · refine hr_bind (J := Grown N y.a c) (fun st r st' h e => newString_hr (n := st.cfg.str) _ _ _ ⟨h.1, h.2.1⟩ e) fun z => hr_bind putValue_hr fun r => ?_
    obtain ⟨z, o⟩ := r
    have fin : ∀ z, Hr (Grown N y.a c z) (appendChar z 0 >>= fun z => pure (.buf z.data 0)) fun p => Issued N y.a c (some p) :=
      fun z => hr_bind appendChar_hr fun z => hr_pure fun st ⟨h1, h2, h3, h4, h5⟩ => ⟨h5, fun b off e => by cases e; exact ⟨h1, h4⟩⟩
    cases o <;> exact hr_bind (stringifyLoop_hr _ _ _ _) fin

/-- The functions that return a copy of a text. -/
def GetFn.copy (F : Nat) : GetFn → Addr → M (Option SPtr)
  | .str, v => getStr v
  | .unStr, v => getUnEscapeStr v
  | .numStr, v => getNumStr v
  | .key, v => getKey v
  | .unKey, v => getUnEscapeKey v
  | .print, v => do return some (← stringify F v)
  | _, _ => pure none

theorem copy_issued (F : Nat) (f : GetFn) : Hr (Before N c v y) (f.copy F v) (Issued N y.a c) := by
  have text : ∀ {m}, (m = getStr ∨ m = getNumStr) → Hr (Before N c v y) (m v) (Issued N y.a c) := by
    rintro m (rfl | rfl)
    · unfold ZJ.getStr
      refine hr_val (fun st h => h.2.2) ?_
      split
      · exact issued_none
      · refine hr_look (by qt1) fun _ => ?_
        split
        · exact issued_none
        · exact hr_look (by qt1) fun _ => hr_look (by qt1) fun _ => copyOut_issued
    · unfold ZJ.getNumStr
      refine hr_val (fun st h => h.2.2) ?_
      split
      · exact issued_none
      · refine hr_look (by qt1) fun _ => ?_
        split
        · exact issued_none
        · exact hr_look (by qt1) fun _ => hr_look (by qt1) fun _ => copyOut_issued
  cases f with
  | str => exact text (.inl rfl)
  | numStr => exact text (.inr rfl)
  | unStr =>
    unfold GetFn.copy ZJ.getUnEscapeStr
    refine hr_val (fun st h => h.2.2) ?_
    dsimp only
    split
    · exact issued_none
    · refine hr_look (by qt1) fun _ => ?_
      split
      · exact issued_none
      · exact hr_look (by qt1) fun _ => hr_look (by qt1) fun _ => hr_look (by qt1) fun _ => hr_look (by qt1) fun _ => newBuf_issued
  | key =>
    unfold GetFn.copy ZJ.getKey
    refine hr_val (fun st h => h.2.2) ?_
    split
    · exact issued_none
    · refine hr_look (by qt1) fun _ => ?_
      split
      · exact issued_none
      · exact hr_look (by qt1) fun _ => copyOut_issued
  | unKey =>
    unfold GetFn.copy ZJ.getUnEscapeKey
    refine hr_val (fun st h => h.2.2) ?_
    dsimp only
    split
    · exact issued_none
    · refine hr_look (by qt1) fun _ => ?_
      split
      · exact issued_none
      · exact hr_look (by qt1) fun _ => hr_look (by qt1) fun _ => hr_look (by qt1) fun _ => newBuf_issued
  | print => exact stringify_issued
  | _ => exact issued_none

theorem getCopy_tr (F : Nat) (f : GetFn) (v : Addr) : Traces Q K N (f.copy F v) := by
  cases f <;> unfold GetFn.copy <;> trc

end

/-! ### C50 -/

variable {D : Type} {fp : FP D}

theorem Prog.begun {slack : Nat → Nat} {p : Prog D} {F : Nat} {rs : List (Ans D)} {st : St}
    (hp : p.run fp F (St.init slack cfg) = .ok (rs, st)) : Begun st :=
  (Prog.traces (K := fun _ => True) (N := 0) fp F p p.hands_all _ _ _ (Nat.zero_le _) hp).keeps
    (fun _ _ hs h => h.hop hs) (Begun.init slack)

/-- A block a client does not know how to write to. -/
theorem Prog.keeps {q : Prog D} {F : Nat} {st st' : St} {rs : List (Ans D)} {b : Addr} {x : Buf}
    (hq : q.run fp F st = .ok (rs, st')) (hb : b < st.nb) (hx : st.bufs b = some x) (hc : ∀ z, st.cache = some z → z.data ≠ b)
    (hf : ∀ A, st.na ≤ A → st.allocs A = false) (hl : ∀ A, x.owner = some A → st'.allocs A = true) : st'.bufs b = some x := by
  have := (Prog.traces (K := fun _ => True) (N := st.nb) fp F q q.hands_all _ _ _ (Nat.le_refl _) hq).keeps
    (fun _ _ hs h => Frozen.hop hb h hs) ⟨hb, .inl hx, hc, hf⟩
  rcases this.same with h | ⟨A, h1, _, h2⟩
  · exact h
  · rw [hl A h1] at h2; cases h2

/-- The bytes behind `p` are readable in `st'` and the same as in `st`. -/
def SameText (p : SPtr) (st st' : St) : Prop := ∃ x, view p st = .ok (x, st) ∧ view p st' = .ok (x, st')

/-- C50 for the functions that return a copy: after any calls `p`, the text that the function
returned stays there, byte for byte, whatever the client does afterwards (`q`: it may change
or delete the value, reuse the handle, or make calls that are not allowed, as long as the
program runs), unless it releases the allocator of the handle. -/
theorem C50_copies {slack : Nat → Nat} {p q : Prog D} {F F1 F2 : Nat} {rs rs' : List (Ans D)} {st st1 st2 : St} {f : GetFn} {v : Addr}
    {y : Val} {t : SPtr} (hp : p.run fp F (St.init slack cfg) = .ok (rs, st)) (hv : st.vals v = some y)
    (hf : f.copy F1 v st = .ok (some t, st1)) (hq : q.run fp F2 st1 = .ok (rs', st2)) (hl : st2.allocs y.a = true) :
    SameText t st1 st2 := by
  have hB := Prog.begun hp
  obtain ⟨hc, hb⟩ := copy_issued (N := st.nb) (c := st.cache) F1 f st _ st1 ⟨Nat.le_refl _, rfl, hv⟩ hf
  cases t with
  | lit s => exact ⟨_, rfl, rfl⟩
  | buf b off =>
    obtain ⟨h1, x, h2, h3⟩ := hb b off rfl
    have hB1 : Begun st1 := ((getCopy_tr (Q := fun _ => True) (K := fun _ => True) F1 f v) _ _ _ (Nat.zero_le _) hf).keeps (fun _ _ hs h => h.hop hs) hB
    have hlt : b < st1.nb := Decidable.byContradiction fun h => by
      rw [hB1.bufs b (by omega)] at h2; cases h2
    have := Prog.keeps hq hlt h2 (fun z hz => by have := hB.cache z (hc ▸ hz); omega) hB1.fresh
      (fun A e => by rw [h3] at e; cases e; exact hl)
    exact ⟨(x.data.drop off, x.size + x.slack - off), by simp only [view, h2], by simp only [view, this]⟩

/-! ### Pointers into the document -/

/-- The functions that return a pointer into the text of the document, with the length. -/
def GetFn.inner : GetFn → Addr → M (Option (SPtr × Nat))
  | .strFast, v => getStrFast v
  | .numFast, v => getNumFast v
  | .keyFast, v => getKeyFast v
  | _, _ => pure none

/-- In a state that represents documents, such a text is one of the texts of the documents. -/
theorem inner_at {st st1 : St} {P : Addr → Prop} {s : Store} (h : WP st P s) {v : Addr} {y : Val} (hv : s.hnd v = some y) {f : GetFn}
    {t : SPtr} {n : Nat} (e : f.inner v st = .ok (some (t, n), st1)) : st1 = st ∧ ∃ raw, raw.length = n ∧ StrAt st P t raw := by
  obtain ⟨hv', hy⟩ := h.hnd v y hv
  obtain ⟨o, A⟩ := y
  cases o with
  | none =>
    have := get_empty (fp := (⟨fun _ => [], fun _ => ()⟩ : FP Unit)) hv'
    cases f with
    | strFast => cases this.2.1.symm.trans e
    | numFast => cases this.2.2.2.2.1.symm.trans e
    | keyFast => cases this.2.2.2.2.2.2.2.2.2.2.2.2.1.symm.trans e
    | _ => cases e
  | some a =>
    obtain ⟨gn, ha⟩ := Option.isSome_iff_exists.1 (hy a rfl)
    cases f with
    | strFast =>
      by_cases hg : gn.val.type = .string
      · obtain ⟨raw, hr⟩ : ∃ raw, gn.val = .str raw := by
          revert hg
          cases gn.val with
          | str raw => exact fun _ => ⟨raw, rfl⟩
          | con o ks => cases o <;> exact nofun
          | _ => exact nofun
        obtain ⟨p, h1, h2⟩ := getStrFast_run h.inv hv' ha hr
        cases h1.symm.trans e
        exact ⟨rfl, raw, rfl, h2⟩
      · cases (getStr_other h.inv hv' ha hg).2.1.symm.trans e
    | numFast =>
      by_cases hg : gn.val.type = .number
      · obtain ⟨raw, hr⟩ : ∃ raw, gn.val = .num raw := by
          revert hg
          cases gn.val with
          | num raw => exact fun _ => ⟨raw, rfl⟩
          | con o ks => cases o <;> exact nofun
          | _ => exact nofun
        obtain ⟨p, h1, h2⟩ := getNumFast_run h.inv hv' ha hr
        cases h1.symm.trans e
        exact ⟨rfl, raw, rfl, h2⟩
      · cases (getNum_other (fp := (⟨fun _ => [], fun _ => ()⟩ : FP Unit)) h.inv hv' ha hg).2.1.symm.trans e
    | keyFast =>
      cases hk : gn.key with
      | none => cases (getKey_none h.inv hv' ha hk).2.1.symm.trans e
      | some raw =>
        obtain ⟨p, h1, h2⟩ := (getKey_run h.inv hv' ha hk).2
        cases h1.symm.trans e
        exact ⟨rfl, raw, rfl, h2⟩
    | _ => cases e

/-- C50 for the functions that return a pointer into the text of the document, with its
length: after any allowed calls `p`, the text stays there whatever the client does afterwards,
unless it releases the allocator whose memory the text is in (texts in memory of the caller
stay as long as the caller keeps them). -/
theorem C50_fast {slack : Nat → Nat} {pad : Bool} (hpad : pad = true → ∀ b, 3 ≤ slack b) (p : Prog D) (hs : p.Safe fp (Store.init pad)) :
    ∃ c rs st s, (∀ F, c ≤ F → p.run fp F (St.init slack cfg) = .ok (rs, st)) ∧ p.Gives fp (Store.init pad) rs s ∧
      ∀ f v y t n st1 F2 (q : Prog D) rs' st2, s.hnd v = some y → GetFn.inner f v st = .ok (some (t, n), st1) →
        q.run fp F2 st1 = .ok (rs', st2) →
        (∀ b off x A, t = .buf b off → st1.bufs b = some x → x.owner = some A → st2.allocs A = true) →
        SameText t st1 st2 := by
  obtain ⟨c, rs, st, s, P, e, hG, h⟩ := p.goes (WP.init hpad) hs
  refine ⟨c, rs, st, s, e, hG, fun f v y t n st1 F2 q rs' st2 hv hf hq hl => ?_⟩
  obtain ⟨rfl, raw, hn, ht⟩ := inner_at h hv hf
  cases t with
  | lit s => exact ⟨_, rfl, rfl⟩
  | buf b off =>
    obtain ⟨hP, x, r, hx, hd⟩ := ht
    have := Prog.keeps hq (h.inv.ok.buf_lt hx) hx (fun z hz e => ((h.inv.pin b hP).2 z hz).2 e.symm) h.fresh (fun A ho => hl b off x A rfl hx ho)
    exact ⟨(x.data.drop off, x.size + x.slack - off), by simp only [view, hx], by simp only [view, this]⟩

/-- These are the pointers behind the answers of `zj_GetStr` … `zj_Stringify` in the runs of C34. -/
theorem getCopy_run {F : Nat} {f : GetFn} (hf : f ∈ [.str, .unStr, .numStr, .key, .unKey, .print]) (v : Addr) :
    f.run fp F v = (do return .bytes (← readC (← f.copy F v))) := by
  simp only [List.mem_cons, List.not_mem_nil, or_false] at hf
  rcases hf with rfl | rfl | rfl | rfl | rfl | rfl
  all_goals first | rfl | skip
  funext st
  simp only [GetFn.run, GetFn.copy, M.bind_run]
  cases stringify F v st <;> rfl

theorem getInner_run {F : Nat} {f : GetFn} (hf : f ∈ [.strFast, .numFast, .keyFast]) (v : Addr) :
    f.run fp F v = (do return .bytes (← readL (← f.inner v))) := by
  simp only [List.mem_cons, List.not_mem_nil, or_false] at hf
  rcases hf with rfl | rfl | rfl <;> rfl

/-- A run as in `C50_copies`: the string `"ab"` is read, then the value is changed twice and
printed, and another allocator is released; the text read first is still there. -/
example : ((do
    let _ ← (Prog.seq [.newAlloc, .newAlloc, .newValue 0, .parse .parse 0 b!"\"ab\""]).run (⟨fun _ => [], fun _ => ()⟩ : FP Unit) 99
    let t ← GetFn.copy 99 .str 0
    let _ ← (Prog.seq [.text .str 0 b!"xyz", .release 1, .parse .parse 0 b!"[1]", .get .print 0]).run (⟨fun _ => [], fun _ => ()⟩ : FP Unit) 99
    readC t : M (Option Bytes)) (St.init fun _ => 0)).out = .ok (some b!"ab") := by decide +kernel

/-- The same for `zj_GetStrFast`. -/
example : ((do
    let _ ← (Prog.seq [.newAlloc, .newAlloc, .newValue 0, .parse .parse 0 b!"\"ab\""]).run (⟨fun _ => [], fun _ => ()⟩ : FP Unit) 99
    let t ← GetFn.inner .strFast 0
    let _ ← (Prog.seq [.text .str 0 b!"xyz", .release 1, .parse .parse 0 b!"[1]", .get .print 0]).run (⟨fun _ => [], fun _ => ()⟩ : FP Unit) 99
    readL t : M (Option Bytes)) (St.init fun _ => 0)).out = .ok (some b!"ab") := by decide +kernel

/-- After its allocator is released the text is gone. -/
example : ((do
    let _ ← (Prog.seq [.newAlloc, .newAlloc, .newValue 0, .parse .parse 0 b!"\"ab\""]).run (⟨fun _ => [], fun _ => ()⟩ : FP Unit) 99
    let t ← GetFn.copy 99 .str 0
    let _ ← (Prog.seq [.release 0]).run (⟨fun _ => [], fun _ => ()⟩ : FP Unit) 99
    readC t : M (Option Bytes)) (St.init fun _ => 0)).out = .ub .wild := by decide +kernel

end ZJ
