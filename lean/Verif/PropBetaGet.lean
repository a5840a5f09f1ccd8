import Verif.PropBeta
import Verif.HistGet
import Verif.PropEsc

/-
C72 for every client of `beta/zzzjson_beta.h` that keeps to one handle: reading strings, unescaped
strings and numbers, printing, setting and parsing in any order.
-/

namespace ZJ.Beta

/-! ### What such a client does and what it should be told -/

/-- A call through the handle. -/
inductive Call where
  | getString
  | getUnEscapeString
  | getNumStr
  | print
  | setStr (d : Bytes)
  | setNumStr (d : Bytes)
  | setNull
  | setBool (b : Bool)
  | setArray
  | setObj
  | parse (d : Bytes)

/-- What the client is told: a text or a null pointer, a boolean, or nothing. -/
inductive Told where
  | text (b : Option Bytes)
  | flag (b : Bool)
  | done
  deriving DecidableEq

/-- The texts the client passes have no NUL in them. -/
def Call.Clean : Call → Prop
  | .setStr d => (0 : Byte) ∉ d
  | .setNumStr d => (0 : Byte) ∉ d
  | .parse d => (0 : Byte) ∉ d
  | _ => True

/-- Specification: the value is a document or nothing; what a call is told and what the value is then. -/
inductive Does : Option Json → Call → Told → Option Json → Prop where
  | str {b} : Does (some (.str b)) .getString (.text (some b)) (some (.str b))
  | strNo {o} : (∀ b, o ≠ some (.str b)) → Does o .getString (.text none) o
  | unesc {b d} : Denotes b d → Does (some (.str b)) .getUnEscapeString (.text (some (d.takeWhile (· ≠ 0)))) (some (.str b))
  | unescNo {o} : (∀ b, o ≠ some (.str b)) → Does o .getUnEscapeString (.text none) o
  | num {b} : Does (some (.num b)) .getNumStr (.text (some b)) (some (.num b))
  | numNo {o} : (∀ b, o ≠ some (.num b)) → Does o .getNumStr (.text none) o
  | print {t} : Does (some t) .print (.text (some t.print)) (some t)
  | printNo : Does none .print (.text (some [])) none
  | setStr {o d} : IsSetBody d → Does o (.setStr d) (.flag true) (some (.str d))
  | setStrNo {o d} : ¬ IsSetBody d → Does o (.setStr d) (.flag false) o
  | setNum {o d} : IsNum d → Does o (.setNumStr d) (.flag true) (some (.num d))
  | setNumNo {o d} : ¬ IsNum d → Does o (.setNumStr d) (.flag false) o
  | setNull {o} : Does o .setNull .done (some .null)
  | setBool {o b} : Does o (.setBool b) .done (some (.bool b))
  | setArray {o} : Does o .setArray .done (some (.arr []))
  | setObj {o} : Does o .setObj .done (some (.obj []))
  | parse {o t d} : JText t d → Does o (.parse d) (.flag true) (some t)
  | parseNo {o d} : (¬ ∃ t, JText t d) → Does o (.parse d) (.flag false) o

/-- The specification leaves no choice. -/
theorem Does.det {o c r r' o1 o2} (h : Does o c r o1) (h' : Does o c r' o2) : r = r' ∧ o1 = o2 := by
  cases h <;> cases h' <;> first
    | exact ⟨rfl, rfl⟩
    | (rename_i h1 h2; exact absurd rfl (h1 _))
    | (rename_i h1 h2; exact absurd rfl (h2 _))
    | (rename_i h1; exact absurd rfl (h1 _))
    | (rename_i h1 h2; exact absurd h1 h2)
    | (rename_i h1 h2; exact absurd h2 h1)
    | (rename_i h1 h2; exact absurd ⟨_, h1⟩ h2)
    | (rename_i h1 h2; exact absurd ⟨_, h2⟩ h1)
    | (rename_i h1 _ h2; exact absurd ⟨_, h2⟩ h1)
    | (rename_i h1 h2; exact absurd ⟨_, h1⟩ h2)
    | (rename_i h1 _ h2; obtain rfl := h1.det h2; exact ⟨rfl, rfl⟩)
    | (rename_i h1 _ h2; obtain rfl := JText_unique h1 h2; exact ⟨rfl, rfl⟩)

/-- A whole session. -/
inductive Session : Option Json → List Call → List Told → Option Json → Prop where
  | nil {o} : Session o [] [] o
  | cons {o c r o1 cs rs o2} : Does o c r o1 → Session o1 cs rs o2 → Session o (c :: cs) (r :: rs) o2

theorem Session.det {o cs rs o1} (h : Session o cs rs o1) : ∀ {rs' o2}, Session o cs rs' o2 → rs = rs' ∧ o1 = o2 := by
  induction h with
  | nil => intro _ _ h; cases h; exact ⟨rfl, rfl⟩
  | cons h _ ih =>
    intro _ _ h'
    cases h' with
    | cons h1 h2 =>
      obtain ⟨rfl, rfl⟩ := h.det h1
      obtain ⟨rfl, rfl⟩ := ih h2
      exact ⟨rfl, rfl⟩

/-! ### The client -/

variable {D : Type}

/-- One call; texts are passed in memory of the client's own, for parsing with the four bytes of C05
behind them. -/
def call (fuel : Nat) (v : Addr) : Call → BM D Told
  | .getString => do return .text (← up (readC (← getString v)))
  | .getUnEscapeString => do return .text (← up (readC (← getUnEscapeString v)))
  | .getNumStr => do return .text (← up (readC (← getNumStr v)))
  | .print => do return .text (← up (readC (some (← stringify fuel v))))
  | .setStr d => do
    let q ← up (callerText (d ++ [0]))
    return .flag (← setStr v q)
  | .setNumStr d => do
    let q ← up (callerText (d ++ [0]))
    return .flag (← setNumStr v q)
  | .setNull => do setNull v; return .done
  | .setBool b => do setBool v b; return .done
  | .setArray => do setArray v; return .done
  | .setObj => do setObj v; return .done
  | .parse d => do
    let q ← up (callerText (d ++ [0, 0, 0, 0]))
    return .flag (← parseFast v q)

def session (fuel : Nat) (v : Addr) : List Call → BM D (List Told)
  | [] => pure []
  | c :: cs => do
    let r ← call fuel v c
    return r :: (← session fuel v cs)

/-! ### Proof -/

section
variable {s s' : BSt D} {P : Addr → Prop} {G : Graph} {v A : Addr} {x : Option Addr} {p : SPtr} {b d : Bytes} {t : Json}

/-- What the handle remembers, if anything, is what the document says. -/
structure Agrees (st : St) (c : Cache D) (t : Json) : Prop where
  str : ∀ p, c.str = some p → ∃ b, (t = .str b ∨ t = .num b) ∧ HoldsText st p b
  alt : ∀ a, c.alt = some a → ∃ p b d, a = .text p ∧ t = .str b ∧ Denotes b d ∧ HoldsText st p d

theorem Agrees.empty {st : St} : Agrees st ({} : Cache D) t := ⟨fun _ h => (nomatch h), fun _ h => (nomatch h)⟩

theorem Agrees.unch {st st' : St} {c : Cache D} (h : Agrees st c t) (ho : StOK st) (hu : Unchanged st st') :
    Agrees st' c t where
  str p hp := by
    obtain ⟨b, h1, h2⟩ := h.str p hp
    exact ⟨b, h1, HoldsText.unch h2 ho hu⟩
  alt a ha := by
    obtain ⟨p, b, d, h1, h2, h3, h4⟩ := h.alt a ha
    exact ⟨p, b, d, h1, h2, h3, HoldsText.unch h4 ho hu⟩

/-- The handle holds `o`, and what it remembers is right. -/
def Honest (s : BSt D) (v A : Addr) (o : Option Json) : Prop :=
  ∃ P G x, Ready s.st P G v x A ∧
    match o with
    | none => x = none
    | some t => t.Valid ∧ Shows s.st v t ∧ Agrees s.st (s.mem v) t

theorem Honest.unch {o : Option Json} {st' : St} (h : Honest s v A o) (hu : Unchanged s.st st') (ho : StOK st') :
    Honest (⟨st', s.mem⟩ : BSt D) v A o := by
  obtain ⟨P, G, x, hR, h⟩ := h
  refine ⟨P, G, x, hR.unchanged hu ho, ?_⟩
  cases o with
  | none => exact h
  | some t =>
    obtain ⟨h1, h2, h3⟩ := h
    refine ⟨h1, ?_, h3.unch hR.inv.ok hu⟩
    obtain ⟨a, gn, rfl, ha, hv⟩ := hR.node_of h2
    exact (hR.unchanged hu ho).shows (.mk ha hv)

theorem Honest.addC {o : Option Json} (h : Honest s v A o) {d : Bytes} : Honest (⟨s.st.addC d, s.mem⟩ : BSt D) v A o := by
  have ho : StOK s.st := by obtain ⟨P, G, x, hR, _⟩ := h; exact hR.inv.ok
  exact h.unch addC_unch (addC_ok ho)

theorem Honest.clean {st' : St} {P' : Addr → Prop} {G' : Graph} {x' : Option Addr} (hR : Ready st' P' G' v x' A) (hs : Shows st' v t)
    (ht : t.Valid) (m : Addr → Cache D) (hm : m v = {}) : Honest (⟨st', m⟩ : BSt D) v A (some t) :=
  ⟨P', G', x', hR, ht, hs, by rw [show (BSt.mk st' m).mem v = {} from hm]; exact .empty⟩

theorem typed_other (h : Ready s.st P G v x A) {ty : JType} (hs : ∀ t, Shows s.st v t → t.type ≠ ty) :
    typed v ty s.st = .ok (none, s.st) := by
  cases x with
  | none =>
    unfold typed
    mstep rdVal_run h.val
    rfl
  | some a =>
    obtain ⟨t, ht⟩ := h.shows_some
    obtain ⟨a', gn, e, ha, hu⟩ := h.node_of ht
    cases e
    unfold typed
    mstep rdVal_run h.val
    simp only
    mstep h.inv.nType ha
    rw [if_pos (by rw [hu.type]; exact hs t ht)]
    rfl

theorem getText_other (h : Ready s.st P G v x A) {ty : JType} (hs : ∀ t, Shows s.st v t → t.type ≠ ty) :
    getText ty v s = .ok (none, s) := by
  unfold getText
  rw [bind_ok (up_ok (typed_other h hs))]
  rfl

theorem getUnEscapeString_other (h : Ready s.st P G v x A) (hs : ∀ t, Shows s.st v t → t.type ≠ .string) :
    getUnEscapeString v s = .ok (none, s) := by
  unfold getUnEscapeString
  rw [bind_ok (up_ok (typed_other h hs))]
  rfl

theorem typed_same (h : Ready s.st P G v x A) (hs : Shows s.st v t) :
    ∃ a, x = some a ∧ typed v t.type s.st = .ok (some a, s.st) := by
  obtain ⟨a, gn, rfl, ha, hu⟩ := h.node_of hs
  refine ⟨a, rfl, ?_⟩
  unfold typed
  mstep rdVal_run h.val
  simp only
  mstep h.inv.nType ha
  rw [hu.type]
  simp

/-- The first call unescapes the string. -/
theorem getUnEscapeString_first (h : Ready s.st P G v x A) (hs : Shows s.st v (.str b)) (hd : Denotes b d)
    (hc : (s.mem v).alt = none) :
    ∃ st', getUnEscapeString v s =
        .ok (some (.buf s.st.nb 0), ⟨st', upd s.mem v { s.mem v with alt := some (.text (.buf s.st.nb 0)) }⟩) ∧
      HoldsText st' (.buf s.st.nb 0) d ∧ Unchanged s.st st' ∧ Ready st' P G v x A := by
  obtain ⟨a, rfl, ht⟩ := typed_same h hs
  have ht : typed v .string s.st = .ok (some a, s.st) := ht
  obtain ⟨_, gn, e, ha, hu⟩ := h.node_of hs
  cases e
  have hg := hu.str_inv
  obtain ⟨nd, q, h1, h2, h3, h4, h5, _⟩ := h.inv.scalar ha (by rw [hg]; rfl)
  rw [hg] at h4 h5
  have h4' : nd.len = some b.length := h4
  obtain ⟨r, lim, hw⟩ := h5.view
  have hl := hd.length_le
  obtain ⟨hR, hU⟩ := h.addB (d := d ++ [0]) (sz := b.length + 1) (by simp; omega)
  refine ⟨_, ?_, holds_addB, hU, hR⟩
  unfold getUnEscapeString
  rw [bind_ok (up_ok ht)]
  simp only
  rw [bind_ok (a := s.mem v) (s' := ⟨s.st, s.mem⟩) rfl]
  simp only [hc]
  refine (bind_ok (up_ok (a := .buf s.st.nb 0) (st := s.st.addB A (b.length + 1) (d ++ [0])) ?_)).trans rfl
  show (do
      let len ← nLen a
      let (s, _) ← view (← nStr a)
      let out ← lift (unEscapeStr s len (len + 1))
      let b ← newBuf (← rdVal v).a (len + 1) out
      return SPtr.buf b 0 : M _) s.st = _
  mstep nLen_run h1 h4'
  mstep nStr_run h1 h3
  mstep hw
  simp only
  have := unEscapeStr_ok hd (s := b ++ r) rfl
  simp only [GVal.text, this]
  mstep lift_ok _
  mstep rdVal_run h.val
  mstep newBuf_run h.alloc (by simp; omega)
  rfl

theorem getUnEscapeString_again (h : Ready s.st P G v x A) (hs : Shows s.st v (.str b))
    (hc : (s.mem v).alt = some (.text p)) : getUnEscapeString v s = .ok (some p, s) := by
  obtain ⟨a, rfl, ht⟩ := typed_same h hs
  have ht : typed v .string s.st = .ok (some a, s.st) := ht
  unfold getUnEscapeString
  rw [bind_ok (up_ok ht)]
  simp only
  rw [bind_ok (a := s.mem v) (s' := ⟨s.st, s.mem⟩) rfl]
  simp only [hc]
  rfl

/-- Getting a text when the value has one. -/
theorem getText_honest (ty : JType) (hty : ty = .string ∨ ty = .number)
    (h : Honest s v A (some (if ty = .string then .str b else .num b))) (h0 : (0 : Byte) ∉ b) :
    ∃ p s', getText ty v s = .ok (some p, s') ∧ readC (some p) s'.st = .ok (some b, s'.st) ∧
      Honest s' v A (some (if ty = .string then .str b else .num b)) := by
  obtain ⟨P, G, x, hR, hV, hS, hA⟩ := h
  cases e : (s.mem v).str with
  | none =>
    obtain ⟨st', h1, h2, h3, h4⟩ := getText_first ty hty hR hS e
    have hh := Honest.unch (o := some (if ty = .string then .str b else .num b)) ⟨P, G, x, hR, hV, hS, hA⟩ h3 h4.inv.ok
    refine ⟨_, _, h1, ?_, ?_⟩
    · rw [readC_holds h2, takeWhile_self h0]
    · obtain ⟨P1, G1, x1, a1, a2, a3, a4⟩ := hh
      refine ⟨P1, G1, x1, a1, a2, a3, ⟨fun p hp => ?_, fun c hc => ?_⟩⟩
      · simp only [upd_same, Option.some.injEq] at hp
        subst hp
        refine ⟨b, ?_, h2⟩
        split
        · exact .inl rfl
        · exact .inr rfl
      · simp only [upd_same] at hc
        exact a4.alt c hc
  | some p =>
    obtain ⟨b', h1, h2⟩ := hA.str p e
    obtain rfl : b = b' := by
      rcases hty with rfl | rfl <;> simp at h1 <;> exact h1
    refine ⟨p, s, getText_again ty hty hR hS e, ?_, P, G, x, hR, hV, hS, hA⟩
    rw [readC_holds h2, takeWhile_self h0]

theorem guarded_true {m : M Bool} {st' : St} (h : m s.st = .ok (true, st')) :
    guarded v m s = .ok (true, ⟨st', upd s.mem v {}⟩) := (bind_ok (up_ok h)).trans rfl

theorem guarded_false {m : M Bool} {st' : St} (h : m s.st = .ok (false, st')) :
    guarded v m s = .ok (false, ⟨st', s.mem⟩) := (bind_ok (up_ok h)).trans rfl

theorem clearing_ok {m : M Unit} {st' : St} (h : m s.st = .ok ((), st')) :
    clearing v m s = .ok ((), ⟨st', upd s.mem v {}⟩) := by
  refine (bind_ok (a := ()) (s' := ⟨s.st, upd s.mem v {}⟩) rfl).trans ?_
  exact up_ok (s := ⟨s.st, upd s.mem v {}⟩) h

theorem Honest.other {o : Option Json} (h : Honest s v A o) {ty : JType} (ho : ∀ t, o = some t → t.type ≠ ty) :
    ∃ P G x, Ready s.st P G v x A ∧ ∀ t, Shows s.st v t → t.type ≠ ty := by
  obtain ⟨P, G, x, hR, h⟩ := h
  refine ⟨P, G, x, hR, fun t ht => ?_⟩
  cases o with
  | none =>
    obtain ⟨a, gn, e, _⟩ := hR.node_of ht
    rw [show x = none from h] at e
    cases e
  | some t' =>
    obtain rfl := ht.det h.2.1
    exact ho _ rfl

end

/-- C72, one call: the handle does what the specification says and goes on remembering only what is
right. -/
theorem C72_call_partial {s : BSt D} {v A : Addr} {o : Option Json} (c : Call) (h : Honest s v A o) (hc : c.Clean) :
    ∃ k r s' o', (∀ fuel, k ≤ fuel → call fuel v c s = .ok (r, s')) ∧ Does o c r o' ∧ Honest s' v A o' := by
  cases c with
  | getString =>
    by_cases ho : ∃ b, o = some (.str b)
    · obtain ⟨b, rfl⟩ := ho
      have hb : (0 : Byte) ∉ b := by
        obtain ⟨_, _, _, _, hV, _⟩ := h
        exact IsStrBody.no_nul hV
      obtain ⟨p, s', h1, h2, h3⟩ := getText_honest .string (.inl rfl) (b := b) h hb
      exact ⟨0, _, s', _, fun _ _ => (bind_ok h1).trans ((bind_ok (up_ok h2)).trans rfl), .str, h3⟩
    · obtain ⟨P, G, x, hR, hS⟩ := h.other (ty := .string) fun t e he => by
        cases t <;> cases he
        exact ho ⟨_, e⟩
      exact ⟨0, _, s, o, fun _ _ => (bind_ok (getText_other hR hS)).trans ((bind_ok (up_ok readC_none)).trans rfl),
        .strNo fun b e => ho ⟨b, e⟩, h⟩
  | getUnEscapeString =>
    by_cases ho : ∃ b, o = some (.str b)
    · obtain ⟨b, rfl⟩ := ho
      obtain ⟨P, G, x, hR, hV, hS, hA⟩ := h
      obtain ⟨d, hd⟩ := IsStrBody.denotes (b := b) hV
      cases e : (s.mem v).alt with
      | none =>
        obtain ⟨st', h1, h2, h3, h4⟩ := getUnEscapeString_first hR hS hd e
        refine ⟨0, _, _, _, fun _ _ => (bind_ok h1).trans ((bind_ok (up_ok (readC_holds h2))).trans rfl), .unesc hd, ?_⟩
        obtain ⟨P1, G1, x1, a1, a2, a3, a4⟩ := Honest.unch (o := some (.str b)) ⟨P, G, x, hR, hV, hS, hA⟩ h3 h4.inv.ok
        refine ⟨P1, G1, x1, a1, a2, a3, ⟨fun p hp => ?_, fun c hc => ?_⟩⟩
        · simp only [upd_same] at hp
          exact a4.str p hp
        · simp only [upd_same, Option.some.injEq] at hc
          exact ⟨_, b, d, hc.symm, rfl, hd, h2⟩
      | some a =>
        obtain ⟨p, b', d', rfl, h2, h3, h4⟩ := hA.alt a e
        cases h2
        obtain rfl := h3.det hd
        exact ⟨0, _, s, _, fun _ _ => (bind_ok (getUnEscapeString_again hR hS e)).trans ((bind_ok (up_ok (readC_holds h4))).trans rfl),
          .unesc hd, P, G, x, hR, hV, hS, hA⟩
    · obtain ⟨P, G, x, hR, hS⟩ := h.other (ty := .string) fun t e he => by
        cases t <;> cases he
        exact ho ⟨_, e⟩
      exact ⟨0, _, s, o, fun _ _ => (bind_ok (getUnEscapeString_other hR hS)).trans ((bind_ok (up_ok readC_none)).trans rfl),
        .unescNo fun b e => ho ⟨b, e⟩, h⟩
  | getNumStr =>
    by_cases ho : ∃ b, o = some (.num b)
    · obtain ⟨b, rfl⟩ := ho
      have hb : (0 : Byte) ∉ b := by
        obtain ⟨_, _, _, _, hV, _⟩ := h
        exact IsNum.no_nul hV
      obtain ⟨p, s', h1, h2, h3⟩ := getText_honest .number (.inr rfl) (b := b) h hb
      exact ⟨0, _, s', _, fun _ _ => (bind_ok h1).trans ((bind_ok (up_ok h2)).trans rfl), .num, h3⟩
    · obtain ⟨P, G, x, hR, hS⟩ := h.other (ty := .number) fun t e he => by
        cases t <;> cases he
        exact ho ⟨_, e⟩
      exact ⟨0, _, s, o, fun _ _ => (bind_ok (getText_other hR hS)).trans ((bind_ok (up_ok readC_none)).trans rfl),
        .numNo fun b e => ho ⟨b, e⟩, h⟩
  | print =>
    cases o with
    | none =>
      obtain ⟨P, G, x, hR, hx⟩ := h
      obtain rfl : x = none := hx
      obtain ⟨_, h1, rfl⟩ := C09_stringify_empty hR 0
      refine ⟨0, _, s, none, fun fuel _ => ?_, .printNo, P, G, none, hR, rfl⟩
      obtain ⟨_, h1, rfl⟩ := C09_stringify_empty hR fuel
      exact (bind_ok (up_ok h1)).trans rfl
    | some t =>
      obtain ⟨P, G, x, hR, hV, hS, hA⟩ := h
      obtain ⟨k, p, st', h1, h2, _, h4, h5⟩ := C09_stringify hR hS
      have hn : (0 : Byte) ∉ t.print := (print_text hV).no_nul
      refine ⟨k, _, ⟨st', s.mem⟩, some t, fun fuel hf => ?_, .print, Honest.unch ⟨P, G, x, hR, hV, hS, hA⟩ h4 h5.inv.ok⟩
      refine (bind_ok (up_ok (h1 fuel hf))).trans ((bind_ok (up_ok ?_)).trans rfl)
      rw [readC_holds h2, takeWhile_self hn]
  | setStr d =>
    have h' := h.addC (d := d ++ [0])
    have ⟨P, G, x, hR, _⟩ := h'
    rcases C15_setStr hR (addC_cstr hc) with ⟨h1, st', h2, h3⟩ | ⟨h1, h2⟩
    · obtain ⟨gn, hr, _⟩ := h3.store
      exact ⟨0, _, _, _, fun _ _ => (bind_ok (up_ok (callerText_run _ _))).trans ((bind_ok (guarded_true h2)).trans rfl), .setStr h1,
        .clean hr h3.shows h1.body _ (upd_same _ _ _)⟩
    · exact ⟨0, _, _, o, fun _ _ => (bind_ok (up_ok (callerText_run _ _))).trans ((bind_ok (guarded_false h2)).trans rfl), .setStrNo h1, h'⟩
  | setNumStr d =>
    have h' := h.addC (d := d ++ [0])
    have ⟨P, G, x, hR, _⟩ := h'
    rcases C16_setNumStr hR (addC_cstr hc) with ⟨h1, st', h2, h3⟩ | ⟨h1, h2⟩
    · obtain ⟨gn, hr, _⟩ := h3.store
      exact ⟨0, _, _, _, fun _ _ => (bind_ok (up_ok (callerText_run _ _))).trans ((bind_ok (guarded_true h2)).trans rfl), .setNum h1,
        .clean hr h3.shows h1 _ (upd_same _ _ _)⟩
    · exact ⟨0, _, _, o, fun _ _ => (bind_ok (up_ok (callerText_run _ _))).trans ((bind_ok (guarded_false h2)).trans rfl), .setNumNo h1, h'⟩
  | setNull =>
    have ⟨P, G, x, hR, _⟩ := h
    obtain ⟨st', h2, h3⟩ := (C19_set hR).1
    obtain ⟨gn, hr, _⟩ := h3.store
    exact ⟨0, _, _, _, fun _ _ => (bind_ok (clearing_ok h2)).trans rfl, .setNull, .clean hr h3.shows trivial _ (upd_same _ _ _)⟩
  | setBool b =>
    have ⟨P, G, x, hR, _⟩ := h
    obtain ⟨st', h2, h3⟩ := (C19_set hR).2.1 b
    obtain ⟨gn, hr, _⟩ := h3.store
    exact ⟨0, _, _, _, fun _ _ => (bind_ok (clearing_ok h2)).trans rfl, .setBool, .clean hr h3.shows trivial _ (upd_same _ _ _)⟩
  | setArray =>
    have ⟨P, G, x, hR, _⟩ := h
    obtain ⟨st', h2, h3⟩ := (C19_set hR).2.2.1
    obtain ⟨gn, hr, _⟩ := h3.store
    exact ⟨0, _, _, _, fun _ _ => (bind_ok (clearing_ok h2)).trans rfl, .setArray, .clean hr h3.shows trivial _ (upd_same _ _ _)⟩
  | setObj =>
    have ⟨P, G, x, hR, _⟩ := h
    obtain ⟨st', h2, h3⟩ := (C19_set hR).2.2.2
    obtain ⟨gn, hr, _⟩ := h3.store
    exact ⟨0, _, _, _, fun _ _ => (bind_ok (clearing_ok h2)).trans rfl, .setObj, .clean hr h3.shows trivial _ (upd_same _ _ _)⟩
  | parse d =>
    have h' := h.addC (d := d ++ [0, 0, 0, 0])
    have ⟨P, G, x, hR, hx⟩ := h'
    have ho : StOK s.st := by obtain ⟨_, _, _, hR, _⟩ := h; exact hR.inv.ok
    have hv : view (.buf s.st.nb 0) (s.st.addC (d ++ [0, 0, 0, 0])) =
        .ok ((d ++ 0 :: [0, 0, 0], (d ++ [0, 0, 0, 0]).length + s.st.slack s.st.nb), s.st.addC (d ++ [0, 0, 0, 0])) := by
      simp [view, St.addC, upd]
    rcases parseFast_cases (s := ⟨s.st.addC (d ++ [0, 0, 0, 0]), s.mem⟩) hR ⟨hc, _, _, hv⟩ (addC_lent ho) with
      ⟨t, h1, s', P', G', h2, h3, h4, h5, _⟩ | ⟨hn, ⟨s', h2, h3, h4, h5⟩ | ⟨_, h2⟩⟩
    · refine ⟨0, _, _, _, fun _ _ => (bind_ok (up_ok (callerText_run _ _))).trans ((bind_ok h2).trans rfl), .parse h1, ?_⟩
      exact Honest.clean h4 h3 h1.valid s'.mem h5
    · refine ⟨0, _, _, o, fun _ _ => (bind_ok (up_ok (callerText_run _ _))).trans ((bind_ok h2).trans rfl), .parseNo hn, P, G, x, h4, ?_⟩
      cases o with
      | none => exact hx
      | some t =>
        obtain ⟨a1, a2, _⟩ := hx
        refine ⟨a1, ?_, by rw [h5]; exact .empty⟩
        obtain ⟨a, gn, rfl, ha, hv⟩ := hR.node_of a2
        exact h4.shows (.mk ha hv)
    · have := h2 _ _ hv
      simp at this
      omega

/-- C72 for whole sessions with one handle: every answer is the one of the specification, whatever the
order of the calls. Missing for the full property: a second handle on the same value (`C72_false`). -/
theorem C72_session_partial {v A : Addr} : ∀ (cs : List Call) (s : BSt D) (o : Option Json), Honest s v A o →
    (∀ c ∈ cs, c.Clean) →
    ∃ k rs s' o', (∀ fuel, k ≤ fuel → session fuel v cs s = .ok (rs, s')) ∧ Session o cs rs o' ∧ Honest s' v A o'
  | [], s, o, h, _ => ⟨0, [], s, o, fun _ _ => rfl, .nil, h⟩
  | c :: cs, s, o, h, hc => by
    obtain ⟨k1, r, s1, o1, e1, e2, e3⟩ := C72_call_partial c h (hc c (List.mem_cons_self ..))
    obtain ⟨k2, rs, s2, o2, f1, f2, f3⟩ := C72_session_partial cs s1 o1 e3 fun c hm => hc c (List.mem_cons_of_mem _ hm)
    refine ⟨max k1 k2, r :: rs, s2, o2, fun fuel hf => ?_, .cons e2 f2, f3⟩
    exact (bind_ok (e1 fuel (by omega))).trans ((bind_ok (f1 fuel (by omega))).trans rfl)

/-- C72 from the start: with an empty handle, any session, and the only answers the specification
allows. -/
theorem C72_program_partial (slack : Nat → Nat) (m : Addr → Cache D) (cs : List Call) (hc : ∀ c ∈ cs, c.Clean) :
    ∃ k rs s', (∀ fuel, k ≤ fuel → session fuel 0 cs (⟨ZJ.start slack, m⟩ : BSt D) = .ok (rs, s')) ∧
      (∃ o, Session none cs rs o) ∧ ∀ rs' o, Session none cs rs' o → rs' = rs := by
  obtain ⟨k, rs, s', o', h1, h2, _⟩ := C72_session_partial cs (⟨ZJ.start slack, m⟩ : BSt D) none
    ⟨_, _, none, start_ready slack, rfl⟩ hc
  exact ⟨k, rs, s', h1, ⟨o', h2⟩, fun rs' o h => (h.det h2).1⟩

/-! ### Handles on children -/

/-- Specification: the string, if the document is one. -/
def Json.string? : Json → Option Bytes
  | .str b => some b
  | _ => none

/-- A client that walks over the children and reads the string of each. -/
def walk : Nat → Option Addr → BM D (List (Option Bytes))
  | 0, _ => fun _ => .timeout
  | _ + 1, none => pure []
  | fuel + 1, some w => do
    let r ← up (readC (← getString w))
    return r :: (← walk fuel (← next_ w))

def strings (fuel : Nat) (v : Addr) : BM D (List (Option Bytes)) := do walk fuel (← begin_ v)

section
variable {s : BSt D} {P : Addr → Prop} {G : Graph} {v A a : Addr} {x : Option Addr} {t : Json}

theorem Json.Valid.items (h : t.Valid) : ∀ m ∈ t.items, m.2.Valid := by
  have he : ∀ {ts : List Json}, Json.ValidElems ts → ∀ u ∈ ts, u.Valid := by
    intro ts
    induction ts with
    | nil => intro _ _ h; cases h
    | cons t ts ih =>
      intro h u hu
      rcases List.mem_cons.1 hu with rfl | hu
      · exact h.1
      · exact ih h.2 u hu
  have hm : ∀ {ms : List (Bytes × Json)}, Json.ValidMembers ms → ∀ m ∈ ms, m.2.Valid := by
    intro ms
    induction ms with
    | nil => intro _ _ h; cases h
    | cons m ms ih =>
      obtain ⟨k, t⟩ := m
      intro h u hu
      rcases List.mem_cons.1 hu with rfl | hu
      · exact h.2.1
      · exact ih h.2.2 u hu
  cases t with
  | arr ts =>
    intro m hm
    simp only [Json.items, List.mem_map] at hm
    obtain ⟨u, hu, rfl⟩ := hm
    exact he h u hu
  | obj ms => exact hm h
  | _ => intro m hm; cases hm

/-- A new handle remembers nothing. -/
theorem innerNew_run (h : Ready s.st P G v x A) {k : Addr} {gk} (hk : G k = some gk) :
    ∃ st', innerNew A (some k) s = .ok (s.st.nv, ⟨st', upd s.mem s.st.nv {}⟩) ∧
      Ready st' P G s.st.nv (some k) A ∧ Unchanged s.st st' ∧ StOK st' := by
  have hu : Unchanged s.st { s.st.addV A (some k) with log := .alloc A 48 :: s.st.log } :=
    have h := unch_addV (st := s.st) (A := A) (x := some k)
    ⟨⟨h.1.nodes, h.1.vals, h.1.bufs, h.1.nn, h.1.nv, h.1.nb, rfl, rfl, rfl⟩, rfl⟩
  have ho : StOK { s.st.addV A (some k) with log := .alloc A 48 :: s.st.log } :=
    have h := h.inv.ok.addV (x := some k) h.alloc
    ⟨h.nodes, h.vals, h.bufs, h.size, h.live, h.cache⟩
  refine ⟨_, ?_, ⟨h.inv.unchanged hu ho, h.cok.frame h.inv.ok hu.1 rfl, by simp [St.addV, upd], ?_⟩, hu, ho⟩
  · unfold innerNew
    refine (bind_ok (up_ok (a := s.st.nv) (st := { s.st.addV A (some k) with log := .alloc A 48 :: s.st.log }) ?_)).trans rfl
    mstep request_run h.alloc
    rfl
  · intro c hc; cases hc; simp [hk]

/-- The handle of a child, or none. -/
theorem handle_run (h : Ready s.st P G v x A) (q : Option Addr) (hq : ∀ k, q = some k → (G k).isSome) :
    ∃ st' n m, (match q with
        | some k => (do return some (← innerNew A (some k)) : BM D (Option Addr))
        | none => pure none) s = .ok (n, ⟨st', m⟩) ∧ (∀ w, w < s.st.nv → m w = s.mem w) ∧ Unchanged s.st st' ∧ StOK st' ∧
      (q = none → n = none) ∧ ∀ k, q = some k → ∃ w, n = some w ∧ s.st.nv ≤ w ∧ Ready st' P G w (some k) A ∧ m w = {} := by
  cases q with
  | none => exact ⟨s.st, none, s.mem, rfl, fun _ _ => rfl, .refl, h.inv.ok, fun _ => rfl, fun _ h => (nomatch h)⟩
  | some k =>
    obtain ⟨gk, hk⟩ := Option.isSome_iff_exists.1 (hq k rfl)
    obtain ⟨st', h1, h2, h3, h4⟩ := innerNew_run h hk
    refine ⟨st', some s.st.nv, _, (bind_ok h1).trans rfl, fun w hw => upd_ne _ _ (by omega), h3, h4, fun h => (nomatch h), ?_⟩
    intro k' e
    cases e
    exact ⟨_, rfl, Nat.le_refl _, h2, upd_same _ _ _⟩

theorem begin_beta (h : Ready s.st P G v (some a) A) {gn} (ha : G a = some gn) :
    begin_ v s = (match gn.val.kids.head? with
        | some k => (do return some (← innerNew A (some k)) : BM D (Option Addr))
        | none => pure none) s := by
  unfold begin_
  rw [bind_ok (up_ok (rdVal_run h.val))]
  simp only
  rw [bind_ok (up_ok (h.inv.nType ha))]
  cases hg : gn.val with
  | con o ks =>
    obtain ⟨nd, h1, h2, _⟩ := h.inv.con ha hg
    have : ¬ ((GVal.con o ks).type ≠ .object ∧ (GVal.con o ks).type ≠ .array) := by cases o <;> simp [GVal.type, conType]
    rw [if_neg this]
    rw [bind_ok (up_ok (nNode_run h1 h2.value))]
    cases ks <;> rfl
  | _ => rfl

theorem next_beta (h : Ready s.st P G v (some a) A) {f gf o l r} (hf : G f = some gf) (hg : gf.val = .con o (l ++ a :: r)) :
    next_ v s = (match r.head? with
        | some k => (do return some (← innerNew A (some k)) : BM D (Option Addr))
        | none => pure none) s := by
  obtain ⟨nd, h1, h2, _⟩ := h.inv.con hf hg
  obtain ⟨n, gk, k1, k2, k3, _⟩ := h2.seg.at
  unfold next_
  rw [bind_ok (up_ok (rdVal_run h.val))]
  simp only
  rw [bind_ok (up_ok (nNext_run k1 k3))]
  cases r <;> rfl

theorem UnfI.head_some {o : Bool} {ks : List Addr} {xs : List (Bytes × Json)} (h : UnfI G o ks xs) {k : Addr}
    (hk : ks.head? = some k) : (G k).isSome := by
  cases h with
  | nil => cases hk
  | cons h1 _ _ _ => cases hk; rw [h1]; rfl

theorem getString_child {u : Json} (h : Ready s.st P G v (some a) A) (hS : Shows s.st v u) (hV : u.Valid) (hm : s.mem v = {}) :
    ∃ p s', getString v s = .ok (p, s') ∧ readC p s'.st = .ok (Json.string? u, s'.st) ∧ Unchanged s.st s'.st ∧ StOK s'.st ∧
      ∀ w, w ≠ v → s'.mem w = s.mem w := by
  cases u with
  | str b =>
    obtain ⟨st', h1, h2, h3, h4⟩ := getText_first .string (.inl rfl) (b := b) h hS (by rw [hm])
    refine ⟨_, _, h1, ?_, h3, h4.inv.ok, fun w hw => upd_ne _ _ hw⟩
    rw [readC_holds h2, takeWhile_self (IsStrBody.no_nul hV)]
    rfl
  | _ =>
    refine ⟨none, s, getText_other h fun t ht => ?_, rfl, .refl, h.inv.ok, fun _ _ => rfl⟩
    obtain rfl := ht.det hS
    intro e
    cases e

theorem walk_run {f : Addr} {gf : GNode} {o : Bool} : ∀ (r l : List Addr) (s : BSt D) (xs : List (Bytes × Json)) (fuel : Nat) (q : Option Addr),
    Ready s.st P G v x A → G f = some gf → gf.val = .con o (l ++ r) → UnfI G o r xs → (∀ m ∈ xs, m.2.Valid) → r.length < fuel →
    (r = [] → q = none) → (∀ k, r.head? = some k → ∃ w, q = some w ∧ Ready s.st P G w (some k) A ∧ s.mem w = {}) →
    ∃ s', walk fuel q s = .ok (xs.map fun m => Json.string? m.2, s') ∧ Unchanged s.st s'.st ∧ StOK s'.st ∧
      ∀ u, q ≠ some u → u < s.st.nv → s'.mem u = s.mem u
  | [], l, s, xs, fuel, q, h, hf, hg, hx, hV, hfu, hq, _ => by
    cases hx
    rw [hq rfl]
    obtain ⟨n, rfl⟩ : ∃ n, fuel = n + 1 := ⟨fuel - 1, by omega⟩
    exact ⟨s, rfl, .refl, h.inv.ok, fun _ _ _ => rfl⟩
  | k :: r, l, s, xs, fuel, q, h, hf, hg, hx, hV, hfu, _, hq => by
    obtain ⟨w, rfl, hw, hm⟩ := hq k rfl
    obtain ⟨n, rfl⟩ : ∃ n, fuel = n + 1 := ⟨fuel - 1, by omega⟩
    cases hx with
    | cons hk hkey hu hr =>
    rename_i gk key u xs
    obtain ⟨p, s1, e1, e2, e3, e4, e5⟩ := getString_child hw (hw.shows hu) (hV _ (List.mem_cons_self ..)) hm
    have hw1 := hw.unchanged e3 e4
    have hn := next_beta hw1 hf hg
    obtain ⟨st2, q2, m2, a1, a2, a3, a4, a5, a6⟩ := handle_run hw1 r.head? fun k' hk' => UnfI.head_some hr hk'
    obtain ⟨s3, b1, b2, b3, b4⟩ := walk_run r (l ++ [k]) ⟨st2, m2⟩ xs n q2 ((h.unchanged e3 e4).unchanged a3 a4) hf
      (by rw [hg]; simp) hr (fun m hm => hV m (List.mem_cons_of_mem _ hm)) (by simp at hfu; omega)
      (fun e => a5 (by rw [e]; rfl))
      fun k' hk' => by obtain ⟨w', c1, _, c3, c4⟩ := a6 k' hk'; exact ⟨w', c1, c3, c4⟩
    refine ⟨s3, ?_, (e3.trans a3).trans b2, b3, fun u hu1 hu2 => ?_⟩
    · unfold walk
      rw [bind_ok e1, bind_ok (up_ok e2)]
      rw [bind_ok (hn.trans a1), bind_ok b1]
      rfl
    · have hlt : u < s1.st.nv := Nat.lt_of_lt_of_le hu2 e3.1.nv
      refine (b4 u (fun e => ?_) (Nat.lt_of_lt_of_le hlt a3.1.nv)).trans ((a2 u hlt).trans (e5 u fun e => hu1 (by rw [e])))
      cases hr with
      | nil =>
        rw [a5 rfl] at e
        cases e
      | cons _ _ _ _ =>
        obtain ⟨w', c1, c2, _⟩ := a6 _ rfl
        rw [c1] at e
        cases e
        omega

end

/-- C72 for handles on children: walking over an array or object with `z_ValueBegin` and `z_ValueNext`
and reading the string of every child gives the strings in the document, as often as one likes. -/
theorem C72_walk_partial {s : BSt D} {v A : Addr} {t : Json} (h : Honest s v A (some t)) {fuel : Nat} (hf : t.items.length < fuel) :
    ∃ s', strings fuel v s = .ok (t.items.map fun m => Json.string? m.2, s') ∧ Honest s' v A (some t) := by
  obtain ⟨P, G, x, hR, hV, hS, hA⟩ := h
  obtain ⟨a, gn, rfl, ha, hu⟩ := hR.node_of hS
  obtain ⟨o, hi, hcon⟩ := hu.items
  have hlt : v < s.st.nv := hR.inv.ok.val_lt hR.val
  have hb := begin_beta hR ha
  obtain ⟨st1, q, m, a1, a2, a3, a4, a5, a6⟩ := handle_run hR gn.val.kids.head? fun k hk => UnfI.head_some hi hk
  have hR1 := hR.unchanged a3 a4
  have hlen : gn.val.kids.length = t.items.length := hi.length
  have key : ∃ s', walk fuel q ⟨st1, m⟩ = .ok (t.items.map fun m => Json.string? m.2, s') ∧ Unchanged st1 s'.st ∧ StOK s'.st ∧
      ∀ u, q ≠ some u → u < st1.nv → s'.mem u = m u := by
    cases hc : gn.val.isCon with
    | false =>
      have hk : gn.val.kids = [] := by
        revert hc
        cases gn.val <;> intro hc <;> first | rfl | cases hc
      rw [hk] at hi a5 hlen
      cases e : t.items with
      | nil =>
        rw [a5 rfl]
        obtain ⟨n, rfl⟩ : ∃ n, fuel = n + 1 := ⟨fuel - 1, by omega⟩
        exact ⟨_, rfl, .refl, a4, fun _ _ _ => rfl⟩
      | cons _ _ => rw [e] at hlen; cases hlen
    | true =>
      exact walk_run gn.val.kids [] ⟨st1, m⟩ t.items fuel q hR1 ha (by rw [List.nil_append]; exact hcon hc) hi (Json.Valid.items hV) (by omega)
        (fun e => a5 (by rw [e]; rfl)) fun k hk => by obtain ⟨w, c1, _, c3, c4⟩ := a6 k hk; exact ⟨w, c1, c3, c4⟩
  obtain ⟨s', b1, b2, b3, b4⟩ := key
  refine ⟨s', (bind_ok (hb.trans a1)).trans b1, ?_⟩
  have hm : s'.mem v = s.mem v := by
    rw [b4 v (fun e => ?_) (Nat.lt_of_lt_of_le hlt a3.1.nv), a2 v hlt]
    cases hk : gn.val.kids.head? with
    | none => rw [a5 hk] at e; cases e
    | some k =>
      obtain ⟨w, c1, c2, _⟩ := a6 k hk
      rw [c1] at e
      cases e
      omega
  obtain ⟨P', G', x', h1, h2, h3, h4⟩ := Honest.unch (s := s) (o := some t) ⟨P, G, _, hR, hV, hS, hA⟩ (a3.trans b2) b3
  exact ⟨P', G', x', h1, h2, h3, by rw [hm]; exact h4⟩

/-- Handles on the children of `["a",1,"b"]`, twice. -/
example : out ((do
      let p ← up (callerText (b!"[\"a\",1,\"b\"]" ++ [0]))
      let _ ← parseFast 0 p
      return (← strings 9 0, ← strings 9 0) : BM Unit (List (Option Bytes) × List (Option Bytes))) (start Unit)) =
    .ok ([some b!"a", none, some b!"b"], [some b!"a", none, some b!"b"]) := by
  decide +kernel

/-- C72 for `z_ValueGetNum`, when the number is followed by a byte that ends it (see C22): the first call
converts the text, of any length, and later calls return the same. -/
theorem C72_getNum_partial {s : BSt D} {P : Addr → Prop} {G : Graph} {v A a : Addr} {raw : Bytes} {fp : FP D}
    (h : Ready s.st P G v (some a) A) (hs : Shows s.st v (.num raw)) (hi : IsNum raw) (ht : Tail s.st a raw)
    (hc : ∀ c, (s.mem v).alt = some c → c = .num (fp.conv raw)) :
    ∃ s', getNum fp v s = .ok (some (fp.conv raw), s') ∧ Unchanged s.st s'.st ∧ Ready s'.st P G v (some a) A ∧
      (s'.mem v).alt = some (.num (fp.conv raw)) := by
  obtain ⟨_, e, h1⟩ := typed_same h hs
  cases e
  have h1 : typed v .number s.st = .ok (some a, s.st) := h1
  unfold getNum
  cases e : (s.mem v).alt with
  | some c =>
    obtain rfl := hc c e
    refine ⟨s, ?_, .refl, h, e⟩
    rw [bind_ok (up_ok h1)]
    simp only
    rw [bind_ok (a := s.mem v) (s' := ⟨s.st, s.mem⟩) rfl]
    simp only [e]
    rfl
  | none =>
    refine ⟨⟨s.st.req A 8, upd s.mem v { s.mem v with alt := some (.num (fp.conv raw)) }⟩, ?_, unch_req, h.req, by simp⟩
    rw [bind_ok (up_ok h1)]
    simp only
    rw [bind_ok (a := s.mem v) (s' := ⟨s.st, s.mem⟩) rfl]
    simp only [e]
    refine (bind_ok (up_ok (a := fp.conv raw) (st := s.st.req A 8) ?_)).trans rfl
    obtain ⟨_, gn, e, ha, hu⟩ := h.node_of hs
    cases e
    obtain ⟨nd, p, n1, n2, n3, n4, n5⟩ := h.inv.num ha hu.num_inv
    obtain ⟨c, r, lim, hw, hc⟩ := ht.view n1 n3
    have hw' := view_req (A := A) (k := 8) hw
    show (do
        request (← rdVal v).a 8
        let (b, _) ← view (← nStr a)
        let n ← lift (atofText b)
        return fp.conv n : M _) s.st = _
    mstep rdVal_run h.val
    mstep request_run h.alloc
    mstep nStr_run (st := s.st.req A 8) n1 n3
    mstep hw'
    simp only [atofText_spec hi.numeral hc]
    mstep lift_ok _
    rfl

example : out ((do
      let p ← up (callerText (b!"12.5 " ++ [0]))
      let _ ← parseFast 0 p
      return (← getNum ⟨id, id⟩ 0, ← getNum ⟨id, id⟩ 0) : BM Bytes (Option Bytes × Option Bytes)) (start Bytes)) =
    .ok (some b!"12.5", some b!"12.5") := by
  decide +kernel

/-- A session: what is remembered for the string is not taken for the number, nor the other way. -/
example : out (session 99 0 [.parse b!"\"a\\n\"", .getString, .getUnEscapeString, .getNumStr, .setNumStr b!"01", .getString,
      .setNumStr b!"12", .getString, .getUnEscapeString, .getNumStr, .getNumStr, .parse b!"[", .parse b!"[1]", .getNumStr, .print]
      (start Unit)) =
    .ok [.flag true, .text (some b!"a\\n"), .text (some [0x61, 0x0A]), .text none, .flag false, .text (some b!"a\\n"),
      .flag true, .text none, .text none, .text (some b!"12"), .text (some b!"12"), .flag false, .flag true, .text none,
      .text (some b!"[1]")] := by
  decide +kernel

end ZJ.Beta
