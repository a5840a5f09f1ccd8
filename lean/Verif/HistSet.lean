import Verif.Hist

/-
C34: the calls that set a value or a key.
-/

set_option linter.unusedSimpArgs false
set_option linter.unusedVariables false

namespace ZJ

variable {st st' : St} {P P' : Addr → Prop} {s s' : Store} {v w a A : Addr} {x : Option Addr} {gn : GNode}
  {D : Type} {fp : FP D}

/-- The code carries out the call as the abstract machine does. -/
def Goes (fp : FP D) (c : Call D) (st : St) (s : Store) : Prop :=
  ∃ c0 st' r s' P', (∀ F, c0 ≤ F → exec fp F c st = .ok (r, st')) ∧ AStep fp s c r s' ∧ WP st' P' s'

theorem WP.has (h : WP st P s) (hv : s.hnd v = some ⟨x, A⟩) : ∀ a, x = some a → (s.node a).isSome :=
  fun a ha => (h.hnd v _ hv).2 a ha

theorem WP.val (h : WP st P s) (hv : s.hnd v = some ⟨x, A⟩) : st.vals v = some ⟨x, A⟩ := (h.hnd v _ hv).1

theorem WP.alloc (h : WP st P s) (hv : s.hnd v = some ⟨x, A⟩) : st.allocs A = true := h.inv.ok.live v _ (h.val hv)

theorem WP.target (h : WP st P s) (hv : s.hnd v = some ⟨x, A⟩) : Target s v A (rootOf st x) (baseNode s.node x) := by
  cases x with
  | none =>
    refine .new hv ?_ fun h' => absurd (h.seen.node _ h') (Nat.lt_irrefl _)
    cases hg : s.node st.nn with
    | none => exact hg
    | some g => exact absurd (h.inv.lt hg) (by omega)
  | some a =>
    obtain ⟨g, hg⟩ := Option.isSome_iff_exists.1 (h.has hv a rfl)
    refine .old hv ?_
    show s.node a = some ((s.node a).getD _)
    rw [hg]; rfl

/-- The text is passed to the call and then freed, if the document does not point to it. -/
theorem withText_run {α : Type} {d : Bytes} {keep : Bool} {f : SPtr → M α} {r : α} (h : WP st P s)
    (e : f (.buf st.nb 0) (st.addC d) = .ok (r, st')) (h' : WP st' P' s') (hp : Pers (st.addC d) st')
    (hP : keep = false → ∀ b, P' b → P b ∨ (st.addC d).nb ≤ b) :
    ∃ st'', withText d keep f st = .ok (r, st'') ∧ WP st'' P' s' := by
  unfold withText
  cases keep with
  | true =>
    refine ⟨st', ?_, h'⟩
    mstep callerText_run d st
    mstep e
    rfl
  | false =>
    refine ⟨st'.clobber st.nb none, ?_, ?_⟩
    · mstep callerText_run d st
      mstep e
      rfl
    · obtain ⟨bf, e1, e2⟩ := hp.bufs st.nb ⟨none, d.length, st.slack st.nb, d⟩ (by simp [St.addC])
      refine h'.clobber ?_ (h'.inv.ok.buf_lt e1) ⟨bf, e1, e2⟩
      intro hb
      rcases hP rfl _ hb with hb | hb
      · have := (h.inv.pin _ hb).1
        rw [h.inv.ok.bufs _ (Nat.le_refl _)] at this; cases this
      · simp [St.addC] at hb; omega

theorem tkit_cs {Y : SPtr → Prop} {W : Prop} : ∀ B, (tkit st st' A v Y true W).As B → (tkit st st' A v Y true W).Cs B :=
  fun _ h => ⟨rfl, h⟩

theorem caller_owner {d : Bytes} : ∃ bf, (st.addC d).bufs st.nb = some bf ∧ bf.owner = none :=
  ⟨⟨none, d.length, st.slack st.nb, d⟩, by simp [St.addC], rfl⟩

theorem WP.base (h : WP st P s) (hv : s.hnd v = some ⟨x, A⟩) :
    (∀ k, (baseNode s.node x).key = some k → IsStrBody k) ∧ (∀ q, (baseNode s.node x).val = .num q → IsNum q) ∧
    (∀ q, (baseNode s.node x).val = .str q → IsStrBody q) := by
  cases x with
  | none => exact ⟨fun _ h => (nomatch h), fun _ h => (nomatch h), fun _ h => (nomatch h)⟩
  | some a =>
    obtain ⟨g, hg⟩ := Option.isSome_iff_exists.1 (h.has hv a rfl)
    have e : baseNode s.node (some a) = g := by simp [baseNode, hg]
    rw [e]
    exact ⟨fun k => h.valid.key a g k hg, fun k => h.valid.num a g k hg, fun k => h.valid.str a g k hg⟩

theorem WP.setTo {b tl : Bool} {B : Addr → Prop} {gv : GVal} {t : Json} (h : WP st P s)
    (hv : s.hnd v = some ⟨x, A⟩) (ht : Trace st st' A v b s.scrOK) (hS : SetTo B st st' P P' s.node v x A gv t)
    (hB : ∀ c, B c → CacheB st c) (hnum : ∀ s, gv = .num s → IsNum s) (hstr : ∀ s, gv = .str s → IsStrBody s)
    (htl : tl = true → ∀ raw, gv = .num raw → Tail st' (rootOf st x) raw) :
    WP st' P' ((s.use b A).put v A (rootOf st x) ((baseNode s.node x).put gv) tl) :=
  h.put hv ht hS.inv hS.vals hS.frame hB hS.cok (h.base hv).1 hnum hstr htl

theorem WP.keyTo {b : Bool} {B : Addr → Prop} {k : Bytes} (h : WP st P s)
    (hv : s.hnd v = some ⟨x, A⟩) (ht : Trace st st' A v b s.scrOK) (hS : KeyTo B st st' P P' s.node v x A k)
    (hB : ∀ c, B c → CacheB st c) (hk : IsStrBody k) :
    WP st' P' ((s.use b A).put v A (rootOf st x) { baseNode s.node x with key := some k } (s.tail (rootOf st x) && (s.node (rootOf st x)).isSome)) := by
  refine h.put hv ht hS.inv hS.vals hS.frame hB hS.cok (fun q hq => by cases hq; exact hk) (h.base hv).2.1 (h.base hv).2.2 ?_
  · intro htl raw hr
    cases x with
    | none => cases hr
    | some a =>
      obtain ⟨g, h2⟩ := Option.isSome_iff_exists.1 (h.has hv a rfl)
      have hr : g.val = .num raw := by simpa [baseNode, h2] using hr
      · obtain ⟨nd, p, c, r, lim, h3, h4, h5, h6⟩ := h.tail _ _ raw (Bool.and_eq_true _ _ ▸ htl).1 h2 hr
        obtain ⟨n', e1, e2⟩ := hS.value a nd rfl (h.inv.lt h2) h3
        refine ⟨n', p, c, r, lim, e1, by rw [e2]; exact h4, ?_, h6⟩
        cases p with
        | lit s => simpa [ZJ.view] using h5
        | buf b off =>
          have hb := h.inv.pin b (h.inv.ptr h2 h3 (.inr h4))
          obtain ⟨bf, hbf⟩ := Option.isSome_iff_exists.1 hb.1
          have e3 := hS.frame.bufs b (h.inv.ok.buf_lt hbf) (fun hBb => by
            obtain ⟨z, hz, e⟩ := hB b hBb
            exact (hb.2 z hz).2 e)
          simp only [ZJ.view, e3] at h5 ⊢
          rw [hbf] at h5 ⊢
          simp at h5 ⊢
          exact h5

/-! ### Texts -/

/-- What `withText_run` needs to know. -/
def Inner (fp : FP D) (c : Call D) (m : M Bool) (st : St) (P : Addr → Prop) (s : Store) (keep : Bool) : Prop :=
  ∃ r st' P' s', m st = .ok (r, st') ∧ AStep fp s c (.bool r) s' ∧ WP st' P' s' ∧ Pers st st' ∧
    (keep = false → ∀ b, P' b → P b ∨ st.nb ≤ b)

theorem Inner.goes {c : Call D} {d : Bytes} {keep : Bool} {f : SPtr → M Bool}
    (h : WP st P s) (hP' : keep = false → ∀ b, P' b → P b)
    (hi : Inner fp c (f (.buf st.nb 0)) (st.addC d) P' s keep)
    (he : ∀ F, exec fp F c = (do return .bool (← withText d keep f))) : Goes fp c st s := by
  obtain ⟨r, st1, P1, s1, e, hs, hw, hp, hP⟩ := hi
  obtain ⟨st2, e2, hw2⟩ := withText_run (P' := P1) h e hw hp (fun hk b hb => (hP hk b hb).imp (hP' hk b) id)
  refine ⟨0, st2, .bool r, s1, P1, fun F _ => ?_, hs, hw2⟩
  rw [he]
  mstep e2
  rfl

theorem takes_str {f : TextFn} {b : Bytes} (hf : f = .str ∨ f = .strLen ∨ f = .strFast ∨ f = .strLenFast) (h : ¬ IsSetBody b) :
    ∀ gv, ¬ f.Takes b gv := by
  intro gv ht
  cases ht with
  | str _ hb => exact h hb
  | esc hf' => rcases hf with rfl | rfl | rfl | rfl <;> simp at hf'
  | num hf' => rcases hf with rfl | rfl | rfl | rfl <;> simp at hf'

theorem takes_num {f : TextFn} {b : Bytes} (hf : f = .num ∨ f = .numLen ∨ f = .numFast ∨ f = .numLenFast) (h : ¬ IsNum b) :
    ∀ gv, ¬ f.Takes b gv := by
  intro gv ht
  cases ht with
  | num _ hb => exact h hb
  | esc hf' => rcases hf with rfl | rfl | rfl | rfl <;> simp at hf'
  | str hf' => rcases hf with rfl | rfl | rfl | rfl <;> simp at hf'

theorem not_str {b : Bytes} : ∀ s, GVal.str b = .num s → IsNum s := fun s h => by cases h
theorem not_num {b : Bytes} : ∀ s, GVal.num b = .str s → IsStrBody s := fun s h => by cases h

theorem WP.text_yes {f : TextFn} {b : Bytes} {gv : GVal} {t : Json} {B : Addr → Prop} {m : M Bool} {Pre : Prop} {R : Bool → Prop}
    (h : WP st P s) (hv : s.hnd v = some ⟨x, A⟩)
    (e : m st = .ok (true, st')) (hS : SetTo B st st' P P' s.node v x A gv t) (hB : ∀ c, B c → CacheB st c)
    (T : Tri (tkit st st' A v (fun _ => False) f.scratch s.scrOK) Pre m R) (hp : Pers st st' → Pre)
    (hR : R true → f.scratch = true → st'.cache.isSome = true) (ht : f.Takes b gv) :
    Inner fp (.text f v b) m st P s f.keep := by
  have hT := h.trace hv e T hp hR
  have hn : (∀ s, gv = .num s → IsNum s) ∧ (∀ s, gv = .str s → IsStrBody s) := by
    cases ht with
    | str _ hb => exact ⟨not_str, fun s e => by cases e; exact hb.body⟩
    | esc _ => exact ⟨not_str, fun s e => by cases e; exact (quote_eq _ ▸ (escBytes_set _).body)⟩
    | num _ hb => exact ⟨fun s e => by cases e; exact hb, not_num⟩
  exact ⟨true, st', P', _, e, .text ht (h.target hv), h.setTo hv hT hS hB hn.1 hn.2 (fun h => by cases h), hT.pers,
    fun _ => hS.new⟩

theorem WP.text_no {f : TextFn} {b : Bytes} {B : Addr → Prop} {m : M Bool} {Pre : Prop} {R : Bool → Prop}
    (h : WP st P s) (hv : s.hnd v = some ⟨x, A⟩)
    (e : m st = .ok (false, st')) (hS : Kept B st st' P s.node) (hB : ∀ c, B c → CacheB st c)
    (T : Tri (tkit st st' A v (fun _ => False) f.scratch s.scrOK) Pre m R) (hp : Pers st st' → Pre)
    (hR : R false → f.scratch = true → st'.cache.isSome = true) (ht : ∀ gv, ¬ f.Takes b gv) :
    Inner fp (.text f v b) m st P s f.keep := by
  have hT := h.trace hv e T hp hR
  exact ⟨false, st', P, _, e, .textNo hv ht, h.kept hT hS hB, hT.pers, fun _ _ h => .inl h⟩

theorem step_text {f : TextFn} {b : Bytes} (h : WP st P s) (hL : Legit fp s (.text f v b)) : Goes fp (.text f v b) st s := by
  obtain ⟨ha, h0, hsc⟩ := hL
  obtain ⟨⟨x, A⟩, hv⟩ := Option.isSome_iff_exists.1 ha
  have he : ∀ F, exec fp F (.text f v b) = (do return .bool (← withText (passed f.len b) f.keep (f.run v b.length))) := fun F => rfl
  cases f with
  | str =>
    have h1 := h.addC (b ++ [0])
    refine Inner.goes h (fun _ _ h => h) ?_ he
    have T : ∀ st', Tri (tkit (st.addC (b ++ [0])) st' A v (fun _ => False) false s.scrOK) True (setStr v (.buf st.nb 0)) Any :=
      fun st' => Tri.setStr tkit_fine v _ fun _ => .inl rfl
    rcases setStr_run h1.inv (h1.val hv) (h1.has hv) (addC_cstr (by simpa [TextFn.len] using h0)) with ⟨hb, st', e, hS⟩ | ⟨hb, e⟩
    · exact h1.text_yes (f := .str) hv e hS (fun _ h => h.elim) (T _) (fun _ => trivial) (fun _ h => by cases h) (.str (.inl rfl) hb)
    · exact h1.text_no (f := .str) hv e (.refl h1.inv) (fun _ h => h) (T _) (fun _ => trivial) (fun _ h => by cases h) (takes_str (.inl rfl) hb)
  | num =>
    have h1 := h.addC (b ++ [0])
    refine Inner.goes h (fun _ _ h => h) ?_ he
    have T : ∀ st', Tri (tkit (st.addC (b ++ [0])) st' A v (fun _ => False) false s.scrOK) True (setNumStr v (.buf st.nb 0)) Any :=
      fun st' => Tri.setNumStr tkit_fine v _ fun _ => .inl rfl
    rcases setNumStr_run h1.inv (h1.val hv) (h1.has hv) (addC_cstr (by simpa [TextFn.len] using h0)) with ⟨hb, st', e, hS⟩ | ⟨hb, e⟩
    · exact h1.text_yes (f := .num) hv e hS (fun _ h => h.elim) (T _) (fun _ => trivial) (fun _ h => by cases h) (.num (.inl rfl) hb)
    · exact h1.text_no (f := .num) hv e (.refl h1.inv) (fun _ h => h) (T _) (fun _ => trivial) (fun _ h => by cases h) (takes_num (.inl rfl) hb)
  | strFast =>
    have h1 := h.addC_pin (b ++ [0])
    refine Inner.goes (P' := fun c => P c ∨ c = st.nb) h (fun h => by cases h) ?_ he
    have T : ∀ st', Tri (tkit (st.addC (b ++ [0])) st' A v (fun _ => False) false s.scrOK) (Pers (st.addC (b ++ [0])) st')
        (setStrFast v (.buf st.nb 0)) Any :=
      fun st' => Tri.setStrFast v _ (fun _ => .inl rfl) fun h => Ofs.caller h caller_owner
    rcases setStrFast_run h1.inv (h1.val hv) (h1.has hv) (addC_cstr (by simpa [TextFn.len] using h0))
      (fun _ _ e => by cases e; exact .inr rfl) with ⟨hb, st', e, hS⟩ | ⟨hb, e⟩
    · exact h1.text_yes (f := .strFast) hv e hS (fun _ h => h.elim) (T _) id (fun _ h => by cases h) (.str (by simp) hb)
    · exact h1.text_no (f := .strFast) hv e (.refl h1.inv) (fun _ h => h) (T _) id (fun _ h => by cases h) (takes_str (by simp) hb)
  | numFast =>
    have h1 := h.addC_pin (b ++ [0])
    refine Inner.goes (P' := fun c => P c ∨ c = st.nb) h (fun h => by cases h) ?_ he
    have T : ∀ st', Tri (tkit (st.addC (b ++ [0])) st' A v (fun _ => False) false s.scrOK) (Pers (st.addC (b ++ [0])) st')
        (setNumStrFast v (.buf st.nb 0)) Any :=
      fun st' => Tri.setNumStrFast v _ (fun _ => .inl rfl) fun h => Ofs.caller h caller_owner
    rcases setNumStrFast_run h1.inv (h1.val hv) (h1.has hv) (addC_cstr (by simpa [TextFn.len] using h0))
      (fun _ _ e => by cases e; exact .inr rfl) with ⟨hb, st', e, hS⟩ | ⟨hb, e⟩
    · exact h1.text_yes (f := .numFast) hv e hS (fun _ h => h.elim) (T _) id (fun _ h => by cases h) (.num (by simp) hb)
    · exact h1.text_no (f := .numFast) hv e (.refl h1.inv) (fun _ h => h) (T _) id (fun _ h => by cases h) (takes_num (by simp) hb)
  | strLen =>
    have h1 := h.addC b
    refine Inner.goes h (fun _ _ h => h) ?_ he
    have T : ∀ st', Tri (tkit (st.addC b) st' A v (fun _ => False) true s.scrOK) True (setStrLen v (.buf st.nb 0) b.length)
        fun _ => st'.cache.isSome = true := fun st' => Tri.setStrLen tkit_cs tkit_fine v _ _ fun _ => .inl rfl
    have hn : NotCache (st.addC b) (.buf st.nb 0) := fun c _ z e hz => by
      cases e; have := (h.inv.ok.cache z hz).2; omega
    rcases setStrLen_run h1.inv (h1.cok (hsc rfl)) (h1.val hv) (h1.has hv) addC_reads hn with ⟨hb, st', P', e, hS⟩ | ⟨hb, st', e, hS⟩
    · exact h1.text_yes (f := .strLen) hv e hS (fun _ h => h) (T _) (fun _ => trivial) (fun h _ => h) (.str (by simp) hb)
    · exact h1.text_no (f := .strLen) hv e hS (fun _ h => h) (T _) (fun _ => trivial) (fun h _ => h) (takes_str (by simp) hb)
  | numLen =>
    have h1 := h.addC b
    refine Inner.goes h (fun _ _ h => h) ?_ he
    have T : ∀ st', Tri (tkit (st.addC b) st' A v (fun _ => False) true s.scrOK) True (setNumStrLen v (.buf st.nb 0) b.length)
        fun _ => st'.cache.isSome = true := fun st' => Tri.setNumStrLen tkit_cs tkit_fine v _ _ fun _ => .inl rfl
    have hn : NotCache (st.addC b) (.buf st.nb 0) := fun c _ z e hz => by
      cases e; have := (h.inv.ok.cache z hz).2; omega
    rcases setNumStrLen_run h1.inv (h1.cok (hsc rfl)) (h1.val hv) (h1.has hv) addC_reads hn with ⟨hb, st', P', e, hS⟩ | ⟨hb, st', e, hS⟩
    · exact h1.text_yes (f := .numLen) hv e hS (fun _ h => h) (T _) (fun _ => trivial) (fun h _ => h) (.num (by simp) hb)
    · exact h1.text_no (f := .numLen) hv e hS (fun _ h => h) (T _) (fun _ => trivial) (fun h _ => h) (takes_num (by simp) hb)
  | strLenFast =>
    have h1 := h.addC_pin b
    refine Inner.goes (P' := fun c => P c ∨ c = st.nb) h (fun h => by cases h) ?_ he
    have T : ∀ st', Tri (tkit (st.addC b) st' A v (fun _ => False) true s.scrOK) (Pers (st.addC b) st') (setStrLenFast v (.buf st.nb 0) b.length)
        fun _ => st'.cache.isSome = true := fun st' => Tri.setStrLenFast tkit_cs v _ _ (fun _ => .inl rfl)
          fun h => Ofs.caller h caller_owner
    rcases setStrLenFast_run h1.inv (h1.cok (hsc rfl)) (h1.val hv) (h1.has hv) addC_reads
      (fun _ _ e => by cases e; exact .inr rfl) with ⟨hb, st', e, hS⟩ | ⟨hb, st', e, hS⟩
    · exact h1.text_yes (f := .strLenFast) hv e hS (fun _ h => h) (T _) id (fun h _ => h) (.str (by simp) hb)
    · exact h1.text_no (f := .strLenFast) hv e hS (fun _ h => h) (T _) id (fun h _ => h) (takes_str (by simp) hb)
  | numLenFast =>
    have h1 := h.addC_pin b
    refine Inner.goes (P' := fun c => P c ∨ c = st.nb) h (fun h => by cases h) ?_ he
    have T : ∀ st', Tri (tkit (st.addC b) st' A v (fun _ => False) true s.scrOK) (Pers (st.addC b) st') (setNumStrLenFast v (.buf st.nb 0) b.length)
        fun _ => st'.cache.isSome = true := fun st' => Tri.setNumStrLenFast tkit_cs v _ _ (fun _ => .inl rfl)
          fun h => Ofs.caller h caller_owner
    rcases setNumStrLenFast_run h1.inv (h1.cok (hsc rfl)) (h1.val hv) (h1.has hv) addC_reads
      (fun _ _ e => by cases e; exact .inr rfl) with ⟨hb, st', e, hS⟩ | ⟨hb, st', e, hS⟩
    · exact h1.text_yes (f := .numLenFast) hv e hS (fun _ h => h) (T _) id (fun h _ => h) (.num (by simp) hb)
    · exact h1.text_no (f := .numLenFast) hv e hS (fun _ h => h) (T _) id (fun h _ => h) (takes_num (by simp) hb)
  | strEsc =>
    have h1 := h.addC (b ++ [0])
    refine Inner.goes h (fun _ _ h => h) ?_ he
    have T : ∀ st', Tri (tkit (st.addC (b ++ [0])) st' A v (fun _ => False) false s.scrOK) True (setStrEscape v (.buf st.nb 0)) Any :=
      fun st' => Tri.setStrEscape tkit_fine v _ fun _ => .inl rfl
    obtain ⟨st', e, hS⟩ := setStrEscape_run h1.inv (h1.val hv) (h1.has hv) (addC_cstr (by simpa [TextFn.len] using h0))
    exact h1.text_yes (f := .strEsc) hv e hS (fun _ h => h.elim) (T _) (fun _ => trivial) (fun _ h => by cases h)
      (quote_eq b ▸ .esc (.inl rfl))
  | strLenEsc =>
    have h1 := h.addC b
    refine Inner.goes h (fun _ _ h => h) ?_ he
    have T : ∀ st', Tri (tkit (st.addC b) st' A v (fun _ => False) false s.scrOK) True (setStrLenEscape v (.buf st.nb 0) b.length) Any :=
      fun st' => Tri.setStrLenEscape tkit_fine v _ _ fun _ => .inl rfl
    obtain ⟨st', e, hS⟩ := setStrLenEscape_run h1.inv (h1.val hv) (h1.has hv) addC_reads
    exact h1.text_yes (f := .strLenEsc) hv e hS (fun _ h => h.elim) (T _) (fun _ => trivial) (fun _ h => by cases h)
      (quote_eq b ▸ .esc (.inr rfl))

/-! ### Keys -/

theorem WP.key_yes {f : KeyFn} {b k : Bytes} {B : Addr → Prop} {m : M Bool} {Pre : Prop} {R : Bool → Prop}
    (h : WP st P s) (hv : s.hnd v = some ⟨x, A⟩)
    (e : m st = .ok (true, st')) (hS : KeyTo B st st' P P' s.node v x A k) (hB : ∀ c, B c → CacheB st c)
    (T : Tri (tkit st st' A v (fun _ => False) f.scratch s.scrOK) Pre m R) (hp : Pers st st' → Pre)
    (hR : R true → f.scratch = true → st'.cache.isSome = true) (ht : f.Takes b k) (ha : AcceptsKey s.node x) :
    Inner fp (.key f v b) m st P s f.keep := by
  have hT := h.trace hv e T hp hR
  have hn : IsStrBody k := by
    cases ht with
    | plain _ hb => exact hb.body
    | esc _ => exact (quote_eq _ ▸ (escBytes_set _).body)
  refine ⟨true, st', P', _, e, .key ht (h.target hv) ?_, h.keyTo hv hT hS hB hn, hT.pers, fun _ => hS.new⟩
  intro p gp h1 h2
  cases x with
  | none => cases h1
  | some a =>
    obtain ⟨g, hg⟩ := Option.isSome_iff_exists.1 (h.has hv a rfl)
    have h1 : g.par = some p := by simpa [baseNode, hg] using h1
    obtain ⟨gf, ks, h3, h4⟩ := ha a g p rfl hg h1
    rw [h2] at h3; cases h3
    rw [h4]; rfl

theorem WP.key_no {f : KeyFn} {b : Bytes} {B : Addr → Prop} {m : M Bool} {Pre : Prop} {R : Bool → Prop}
    (h : WP st P s) (hv : s.hnd v = some ⟨x, A⟩)
    (e : m st = .ok (false, st')) (hS : Kept B st st' P s.node) (hB : ∀ c, B c → CacheB st c)
    (T : Tri (tkit st st' A v (fun _ => False) f.scratch s.scrOK) Pre m R) (hp : Pers st st' → Pre)
    (hR : R false → f.scratch = true → st'.cache.isSome = true) (ht : (∀ k, ¬ f.Takes b k) ∨ InArray s.node x) :
    Inner fp (.key f v b) m st P s f.keep := by
  have hT := h.trace hv e T hp hR
  refine ⟨false, st', P, _, e, ?_, h.kept hT hS hB, hT.pers, fun _ _ h => .inl h⟩
  rcases ht with ht | ⟨a, gn, f, gf, rfl, h1, h2, h3, h4⟩
  · exact .keyNo hv ht
  · exact .keyInArray hv h1 h2 h3 h4

theorem takes_key {f : KeyFn} {b : Bytes} (hf : f = .key ∨ f = .keyLen ∨ f = .keyFast ∨ f = .keyLenFast) (h : ¬ IsSetBody b) :
    ∀ k, ¬ f.Takes b k := by
  intro gv ht
  cases ht with
  | plain _ hb => exact h hb
  | esc hf' => rcases hf with rfl | rfl | rfl | rfl <;> simp at hf'

/-- A value whose parent is in the store can get a key, or it is in an array. -/
theorem WP.accepts (h : WP st P s) (hv : s.hnd v = some ⟨x, A⟩)
    (hp : ∀ a A gn p, s.hnd v = some ⟨some a, A⟩ → s.node a = some gn → gn.par = some p → (s.node p).isSome) :
    AcceptsKey s.node x ∨ InArray s.node x := by
  cases x with
  | none => exact .inl fun a _ _ e => by cases e
  | some a =>
    obtain ⟨g, hg⟩ := Option.isSome_iff_exists.1 (h.has hv a rfl)
    cases hpar : g.par with
    | none => exact .inl fun a' g' f e h1 h2 => by cases e; rw [hg] at h1; cases h1; rw [hpar] at h2; cases h2
    | some p =>
      obtain ⟨gp, hgp⟩ := Option.isSome_iff_exists.1 (hp a A g p hv hg hpar)
      by_cases ht : gp.val.type = .object
      · refine .inl fun a' g' f e h1 h2 => ?_
        cases e; rw [hg] at h1; cases h1; rw [hpar] at h2; cases h2
        cases hval : gp.val <;> rw [hval] at ht <;> try cases ht
        · next o ks => cases o with
          | true => exact ⟨gp, ks, hgp, hval⟩
          | false => cases ht
      · exact .inr ⟨a, g, p, gp, rfl, hg, hpar, hgp, ht⟩

theorem step_key {f : KeyFn} {b : Bytes} (h : WP st P s) (hL : Legit fp s (.key f v b)) : Goes fp (.key f v b) st s := by
  obtain ⟨ha, h0, hsc, hpar⟩ := hL
  obtain ⟨⟨x, A⟩, hv⟩ := Option.isSome_iff_exists.1 ha
  have hacc := h.accepts hv hpar
  have he : ∀ F, exec fp F (.key f v b) = (do return .bool (← withText (passed f.len b) f.keep (f.run v b.length))) := fun F => rfl
  have hcase : (IsSetBody b ∧ AcceptsKey s.node x) ∨ (¬ IsSetBody b ∨ InArray s.node x) := by
    by_cases hb : IsSetBody b
    · exact hacc.imp (fun h => ⟨hb, h⟩) .inr
    · exact .inr (.inl hb)
  have hno : ∀ {f : KeyFn}, (f = .key ∨ f = .keyLen ∨ f = .keyFast ∨ f = .keyLenFast) → (¬ IsSetBody b ∨ InArray s.node x) →
      (∀ k, ¬ f.Takes b k) ∨ InArray s.node x := fun hf h => h.imp (takes_key hf) id
  cases f with
  | key =>
    have h1 := h.addC (b ++ [0])
    refine Inner.goes h (fun _ _ h => h) ?_ he
    have T : ∀ st', Tri (tkit (st.addC (b ++ [0])) st' A v (fun _ => False) false s.scrOK) True (setKeyC v (.buf st.nb 0)) Any :=
      fun st' => Tri.setKeyC tkit_fine v _ fun _ => .inl rfl
    have hr := setKeyC_run h1.inv (h1.val hv) (h1.has hv) (addC_cstr (by simpa [KeyFn.len] using h0))
    rcases hcase with ⟨hb, hA⟩ | hb
    · obtain ⟨st', e, hS⟩ := hr.1 hb hA
      exact h1.key_yes (f := .key) hv e hS (fun _ h => h.elim) (T _) (fun _ => trivial) (fun _ h => by cases h) (.plain (.inl rfl) hb) hA
    · exact h1.key_no (f := .key) hv (hr.2 hb) (.refl h1.inv) (fun _ h => h) (T _) (fun _ => trivial) (fun _ h => by cases h) (hno (.inl rfl) hb)
  | keyFast =>
    have h1 := h.addC_pin (b ++ [0])
    refine Inner.goes (P' := fun c => P c ∨ c = st.nb) h (fun h => by cases h) ?_ he
    have T : ∀ st', Tri (tkit (st.addC (b ++ [0])) st' A v (fun _ => False) false s.scrOK) (Pers (st.addC (b ++ [0])) st')
        (setKeyFast v (.buf st.nb 0)) Any :=
      fun st' => Tri.setKeyFast tkit_fine v _ (fun _ => .inl rfl) fun h => Ofs.caller h caller_owner
    have hr := setKeyFast_run h1.inv (h1.val hv) (h1.has hv) (addC_cstr (by simpa [KeyFn.len] using h0))
      (fun _ _ e => by cases e; exact .inr rfl)
    rcases hcase with ⟨hb, hA⟩ | hb
    · obtain ⟨st', e, hS⟩ := hr.1 hb hA
      exact h1.key_yes (f := .keyFast) hv e hS (fun _ h => h.elim) (T _) id (fun _ h => by cases h) (.plain (by simp) hb) hA
    · exact h1.key_no (f := .keyFast) hv (hr.2 hb) (.refl h1.inv) (fun _ h => h) (T _) id (fun _ h => by cases h) (hno (by simp) hb)
  | keyLen =>
    have h1 := h.addC b
    refine Inner.goes h (fun _ _ h => h) ?_ he
    have T : ∀ st', Tri (tkit (st.addC b) st' A v (fun _ => False) true s.scrOK) True (setKeyLenC v (.buf st.nb 0) b.length)
        fun _ => st'.cache.isSome = true := fun st' => Tri.setKeyLenC tkit_cs tkit_fine v _ _ fun _ => .inl rfl
    have hn : NotCache (st.addC b) (.buf st.nb 0) := fun c _ z e hz => by
      cases e; have := (h.inv.ok.cache z hz).2; omega
    have hr := setKeyLenC_run h1.inv (h1.cok (hsc rfl)) (h1.val hv) (h1.has hv) addC_reads hn
    rcases hcase with ⟨hb, hA⟩ | hb
    · obtain ⟨st', P', e, hS⟩ := hr.1 hb hA
      exact h1.key_yes (f := .keyLen) hv e hS (fun _ h => h) (T _) (fun _ => trivial) (fun h _ => h) (.plain (by simp) hb) hA
    · obtain ⟨st', e, hS⟩ := hr.2 hb
      exact h1.key_no (f := .keyLen) hv e hS (fun _ h => h) (T _) (fun _ => trivial) (fun h _ => h) (hno (by simp) hb)
  | keyLenFast =>
    have h1 := h.addC_pin b
    refine Inner.goes (P' := fun c => P c ∨ c = st.nb) h (fun h => by cases h) ?_ he
    have T : ∀ st', Tri (tkit (st.addC b) st' A v (fun _ => False) true s.scrOK) (Pers (st.addC b) st') (setKeyLenFast v (.buf st.nb 0) b.length)
        fun _ => st'.cache.isSome = true := fun st' => Tri.setKeyLenFast tkit_cs tkit_fine v _ _ (fun _ => .inl rfl)
          fun h => Ofs.caller h caller_owner
    have hr := setKeyLenFast_run h1.inv (h1.cok (hsc rfl)) (h1.val hv) (h1.has hv) addC_reads
      (fun _ _ e => by cases e; exact .inr rfl)
    rcases hcase with ⟨hb, hA⟩ | hb
    · obtain ⟨st', e, hS⟩ := hr.1 hb hA
      exact h1.key_yes (f := .keyLenFast) hv e hS (fun _ h => h) (T _) id (fun h _ => h) (.plain (by simp) hb) hA
    · obtain ⟨st', e, hS⟩ := hr.2 hb
      exact h1.key_no (f := .keyLenFast) hv e hS (fun _ h => h) (T _) id (fun h _ => h) (hno (by simp) hb)
  | keyEsc =>
    have h1 := h.addC (b ++ [0])
    refine Inner.goes h (fun _ _ h => h) ?_ he
    have T : ∀ st', Tri (tkit (st.addC (b ++ [0])) st' A v (fun _ => False) false s.scrOK) True (setKeyEscape v (.buf st.nb 0)) Any :=
      fun st' => Tri.setKeyEscape tkit_fine v _ fun _ => .inl rfl
    have hr := setKeyEscape_run h1.inv (h1.val hv) (h1.has hv) (addC_cstr (by simpa [KeyFn.len] using h0))
    rcases hacc with hA | hA
    · obtain ⟨st', e, hS⟩ := hr.1 hA
      exact h1.key_yes (f := .keyEsc) hv e hS (fun _ h => h.elim) (T _) (fun _ => trivial) (fun _ h => by cases h)
        (quote_eq b ▸ .esc (.inl rfl)) hA
    · obtain ⟨st', e, hS⟩ := hr.2 hA
      exact h1.key_no (f := .keyEsc) hv e hS (fun _ h => h.elim) (T _) (fun _ => trivial) (fun _ h => by cases h) (.inr hA)
  | keyLenEsc =>
    have h1 := h.addC b
    refine Inner.goes h (fun _ _ h => h) ?_ he
    have T : ∀ st', Tri (tkit (st.addC b) st' A v (fun _ => False) false s.scrOK) True (setKeyLenEscape v (.buf st.nb 0) b.length) Any :=
      fun st' => Tri.setKeyLenEscape tkit_fine v _ _ fun _ => .inl rfl
    have hr := setKeyLenEscape_run h1.inv (h1.val hv) (h1.has hv) addC_reads
    rcases hacc with hA | hA
    · obtain ⟨st', e, hS⟩ := hr.1 hA
      exact h1.key_yes (f := .keyLenEsc) hv e hS (fun _ h => h.elim) (T _) (fun _ => trivial) (fun _ h => by cases h)
        (quote_eq b ▸ .esc (.inr rfl)) hA
    · obtain ⟨st', e, hS⟩ := hr.2 hA
      exact h1.key_no (f := .keyLenEsc) hv e hS (fun _ h => h.elim) (T _) (fun _ => trivial) (fun _ h => by cases h) (.inr hA)

/-! ### Other values -/

theorem WP.stored {m : M α} {r : α} {gv : GVal} {t : Json} {Pre : Prop} {R : α → Prop} {B : Addr → Prop} {tl : Bool} (h : WP st P s)
    (hv : s.hnd v = some ⟨x, A⟩) (e : m st = .ok (r, st')) (hS : SetTo B st st' P P' s.node v x A gv t)
    (T : Tri (tkit st st' A v (fun _ => False) false s.scrOK) Pre m R) (hp : Pers st st' → Pre)
    (hB : ∀ c, B c → CacheB st c) (hnum : ∀ s, gv = .num s → IsNum s) (hstr : ∀ s, gv = .str s → IsStrBody s)
    (htl : tl = true → ∀ raw, gv = .num raw → Tail st' (rootOf st x) raw) :
    WP st' P' (s.put v A (rootOf st x) ((baseNode s.node x).put gv) tl) := by
  have hT : Trace st st' A v false s.scrOK := h.trace hv e T hp (fun _ h => by cases h)
  exact h.setTo hv hT hS hB hnum hstr htl

theorem step_null (h : WP st P s) (hL : Legit fp s (.null v)) : Goes fp (.null v) st s := by
  obtain ⟨⟨x, A⟩, hv⟩ := Option.isSome_iff_exists.1 (show (s.hnd v).isSome from hL)
  obtain ⟨st', e, hS⟩ := setNull_run h.inv (h.val hv) (h.has hv)
  refine ⟨0, st', _, _, P, fun F _ => ?_, .null (h.target hv), h.stored hv e (hS.setTo h.inv.ok)
    (Tri.setNull (Pre := True) tkit_fine v fun _ => .inl rfl) (fun _ => trivial) (fun _ h => h.elim) (fun _ h => (nomatch h))
    (fun _ h => (nomatch h)) (fun h => (nomatch h))⟩
  simp only [exec]; mstep e; rfl

theorem step_bool {b : Bool} (h : WP st P s) (hL : Legit fp s (.bool v b)) : Goes fp (.bool v b) st s := by
  obtain ⟨⟨x, A⟩, hv⟩ := Option.isSome_iff_exists.1 (show (s.hnd v).isSome from hL)
  obtain ⟨st', e, hS⟩ := setBool_run h.inv (h.val hv) (h.has hv) b
  refine ⟨0, st', _, _, P, fun F _ => ?_, .bool (h.target hv), h.stored hv e (hS.setTo h.inv.ok)
    (Tri.setBool (Pre := True) tkit_fine v b fun _ => .inl rfl) (fun _ => trivial) (fun _ h => h.elim) (fun _ h => (nomatch h))
    (fun _ h => (nomatch h)) (fun h => (nomatch h))⟩
  simp only [exec]; mstep e; rfl

theorem step_array (h : WP st P s) (hL : Legit fp s (.array v)) : Goes fp (.array v) st s := by
  obtain ⟨⟨x, A⟩, hv⟩ := Option.isSome_iff_exists.1 (show (s.hnd v).isSome from hL)
  obtain ⟨st', e, hS⟩ := setArray_run h.inv (h.val hv) (h.has hv)
  refine ⟨0, st', _, _, P, fun F _ => ?_, .array (h.target hv), h.stored hv e (hS.setTo h.inv.ok)
    (Tri.setArray (Pre := True) v fun _ => .inl rfl) (fun _ => trivial) (fun _ h => h.elim) (fun _ h => (nomatch h))
    (fun _ h => (nomatch h)) (fun h => (nomatch h))⟩
  simp only [exec]; mstep e; rfl

theorem step_object (h : WP st P s) (hL : Legit fp s (.object v)) : Goes fp (.object v) st s := by
  obtain ⟨⟨x, A⟩, hv⟩ := Option.isSome_iff_exists.1 (show (s.hnd v).isSome from hL)
  obtain ⟨st', e, hS⟩ := setObj_run h.inv (h.val hv) (h.has hv)
  refine ⟨0, st', _, _, P, fun F _ => ?_, .object (h.target hv), h.stored hv e (hS.setTo h.inv.ok)
    (Tri.setObj (Pre := True) v fun _ => .inl rfl) (fun _ => trivial) (fun _ h => h.elim) (fun _ h => (nomatch h))
    (fun _ h => (nomatch h)) (fun h => (nomatch h))⟩
  simp only [exec]; mstep e; rfl

theorem step_double {d : D} (h : WP st P s) (hL : Legit fp s (.double v d)) : Goes fp (.double v d) st s := by
  obtain ⟨ha, hlen, hnum⟩ := hL
  obtain ⟨⟨x, A⟩, hv⟩ := Option.isSome_iff_exists.1 (show (s.hnd v).isSome from ha)
  obtain ⟨st', e, hS, htl⟩ := setDouble_run h.inv (h.val hv) (h.has hv) hlen
  refine ⟨0, st', _, _, _, fun F _ => ?_, .double (h.target hv), h.stored hv e hS
    (Tri.setDouble (Pre := True) tkit_fine fp v d fun _ => .inl rfl) (fun _ => trivial) (fun _ h => h.elim)
    (fun _ h => by cases h; exact hnum) (fun _ h => (nomatch h)) (fun _ raw h => by cases h; exact htl)⟩
  simp only [exec]; mstep e; rfl

theorem step_int {f : IntFn} {n : Int} (h : WP st P s) (hL : Legit fp s (.int f v n)) : Goes fp (.int f v n) st s := by
  obtain ⟨ha, hfit⟩ := hL
  obtain ⟨⟨x, A⟩, hv⟩ := Option.isSome_iff_exists.1 (show (s.hnd v).isSome from ha)
  cases f with
  | int =>
    obtain ⟨st', e, hS, htl⟩ := setInt_run h.inv (h.val hv) (h.has hv) (n := n) hfit
    refine ⟨0, st', _, _, _, fun F _ => ?_, .int (h.target hv) (decimal_fmt n), h.stored hv e hS
      (Tri.setInt (Pre := True) tkit_fine v n fun _ => .inl rfl) (fun _ => trivial) (fun _ h => h.elim)
      (fun _ h => by cases h; exact fmtInt_num n) (fun _ h => (nomatch h)) (fun _ raw h => by cases h; exact htl)⟩
    simp only [exec, IntFn.run]; mstep e; rfl
  | long =>
    obtain ⟨st', e, hS, htl⟩ := setLong_run h.inv (h.val hv) (h.has hv) (n := n) hfit
    refine ⟨0, st', _, _, _, fun F _ => ?_, .int (h.target hv) (decimal_fmt n), h.stored hv e hS
      (Tri.setLong (Pre := True) tkit_fine v n fun _ => .inl rfl) (fun _ => trivial) (fun _ h => h.elim)
      (fun _ h => by cases h; exact fmtInt_num n) (fun _ h => (nomatch h)) (fun _ raw h => by cases h; exact htl)⟩
    simp only [exec, IntFn.run]; mstep e; rfl
  | longLong =>
    obtain ⟨st', e, hS, htl⟩ := setLongLong_run h.inv (h.val hv) (h.has hv) (n := n) hfit
    refine ⟨0, st', _, _, _, fun F _ => ?_, .int (h.target hv) (decimal_fmt n), h.stored hv e hS
      (Tri.setLongLong (Pre := True) tkit_fine v n fun _ => .inl rfl) (fun _ => trivial) (fun _ h => h.elim)
      (fun _ h => by cases h; exact fmtInt_num n) (fun _ h => (nomatch h)) (fun _ raw h => by cases h; exact htl)⟩
    simp only [exec, IntFn.run]; mstep e; rfl

end ZJ
