import Verif.TimeText
import Verif.PropTimePrint

/-
Property theorems about the number of steps of the calls: C60.
-/

set_option linter.unusedSimpArgs false
set_option linter.unusedVariables false

namespace ZJ

/-- The most steps a call takes that asks for `m` bytes. No bound here for the calls whose steps
depend on the document: printing (C59), looking up and deleting by key, setting a value to a
container, and the conversions by `atol`, `atoll` and `atof`. -/
def Call.steps {D : Type} (m : Nat) : Call D → Option Nat
  | .newAlloc | .release _ | .newValue _ => some 1
  | .parse _ _ b => some (202 * b.length + 212)
  | .text _ _ b | .key _ _ b => some (16 * b.length + 60)
  | .null _ | .bool _ _ | .array _ | .object _ => some 10
  | .int _ _ _ | .double _ _ => some 75
  | .get .type _ | .get .size _ | .get .null _ | .get .bool _ | .get .strFast _ | .get .numFast _ | .get .keyFast _ => some 5
  | .get .str _ | .get .numStr _ | .get .key _ => some (m + 4)
  | .get .unStr _ | .get .unKey _ => some (14 * m + 7)
  | .get .int _ => some 391
  | .nav .begin _ | .nav .next _ => some 4
  | .nav (.array i) _ => some (i + 4)
  | .copy _ => some (m + 16)
  | .move _ => some 15
  | .add _ true _ _ => some 30
  | .add _ false _ _ => some (m + 31)
  | .delAt _ i => some (i + 19)
  | _ => none

section
variable {α : Type} {st st' : St} {v : Addr} {D : Type}

theorem run_withText {c : Nat} {d : Bytes} {keep : Bool} {g : SPtr → TM α}
    (h : ∀ p, view p (st.addC d) = .ok ((d, d.length + st.slack st.nb), st.addC d) → Run (g p) (st.addC d) fun _ k _ => k ≤ c) :
    Run (withTextT d keep g) st fun _ k _ => k ≤ c := by
  intro a k st' e
  unfold withTextT at e
  obtain ⟨p, m, st1, m', h1, e1, rfl⟩ := TM.bind_inv e
  obtain ⟨rfl, h2⟩ := TM.steps_inv h1
  rw [callerText_run d st] at h2
  cases h2
  obtain ⟨r, m2, st2, m3, h3, e2, rfl⟩ := TM.bind_inv e1
  have := h _ (by simp [view, St.addC]) _ _ _ h3
  split at e2
  · cases e2; omega
  · obtain ⟨u, m4, st3, m5, h4, e3, rfl⟩ := TM.bind_inv e2
    obtain ⟨rfl, _⟩ := TM.steps_inv h4
    cases e3
    omega

theorem run_ret {β : Type} {x : TM α} {g : α → β} {n : Nat} (h : Run x st fun _ k _ => k ≤ n) :
    Run (do return g (← x) : TM β) st fun _ k _ => k ≤ n :=
  Run.bind h fun _ _ _ h => Run.pure (by omega)

theorem passed_stops (b : Bytes) : ∃ n, n ≤ b.length ∧ Stops (passed false b) n := exists_stops b []

theorem run_text {f : TextFn} {b : Bytes} {keep : Bool} :
    Run (withTextT (passed f.len b) keep (f.runT v b.length)) st fun _ k _ => k ≤ 16 * b.length + 60 := by
  refine run_withText fun p hp => ?_
  obtain ⟨n, hn, hs⟩ := passed_stops b
  cases f
  case str => exact (setStrT_run hp hs).mono fun _ _ _ h => by omega
  case strLen => exact fee_setStrLen.run.mono fun _ _ _ h => by omega
  case strFast => exact (setStrFastT_run hp hs).mono fun _ _ _ h => by omega
  case strLenFast => exact fee_setStrLenFast.run.mono fun _ _ _ h => by omega
  case strEsc => exact (setStrEscapeT_run hp hs).mono fun _ _ _ h => by omega
  case strLenEsc => exact setStrLenEscapeT_run.mono fun _ _ _ h => by omega
  case num => exact (setNumStrT_run hp hs).mono fun _ _ _ h => by omega
  case numLen => exact fee_setNumStrLen.run.mono fun _ _ _ h => by omega
  case numFast => exact (setNumStrFastT_run hp hs).mono fun _ _ _ h => by omega
  case numLenFast => exact fee_setNumStrLenFast.run.mono fun _ _ _ h => by omega

theorem run_key {f : KeyFn} {b : Bytes} {keep : Bool} :
    Run (withTextT (passed f.len b) keep (f.runT v b.length)) st fun _ k _ => k ≤ 16 * b.length + 60 := by
  refine run_withText fun p hp => ?_
  obtain ⟨n, hn, hs⟩ := passed_stops b
  cases f
  case key => exact (setKeyCT_run hp hs).mono fun _ _ _ h => by omega
  case keyLen => exact fee_setKeyLenC.run.mono fun _ _ _ h => by omega
  case keyFast => exact (setKeyFastT_run hp hs).mono fun _ _ _ h => by omega
  case keyLenFast => exact fee_setKeyLenFast.run.mono fun _ _ _ h => by omega
  case keyEsc => exact (setKeyEscapeT_run hp hs).mono fun _ _ _ h => by omega
  case keyLenEsc => exact setKeyLenEscapeT_run.mono fun _ _ _ h => by omega

theorem run_parse {f : ParseFn} {b : Bytes} {keep : Bool} :
    Run (withTextT (passed f.len b) keep (f.runT v b.length)) st fun _ k _ => k ≤ 202 * b.length + 212 := by
  refine run_withText fun p hp => ?_
  obtain ⟨n, hn, hs⟩ := passed_stops b
  intro r k st' e
  cases f
  case parseFast =>
    have := parseFastT_le hp hs e
    omega
  case parseLen =>
    have := parseLenT_le e
    omega
  case parse =>
    simp only [ParseFn.runT] at e
    unfold parseT at e
    obtain ⟨q, m1, st1, n1, g1, e1, rfl⟩ := TM.bind_inv e
    obtain ⟨rfl, h1⟩ := TM.steps_inv g1
    rw [hp] at h1
    cases h1
    obtain ⟨l, m2, st2, n2, g2, e2, rfl⟩ := TM.bind_inv e1
    obtain ⟨f2, rfl⟩ := TM.liftT_inv g2
    have h3 := strLenLoopT_le _ _ _ _ f2
    have e4 : (strLenT (passed false b)).val = .ok l := by
      show (strLenT (passed ParseFn.parse.len b)).val = _
      rw [f2]; rfl
    rw [strLenT_val] at e4
    have l4 := strLenLoop_lt e4
    simp [passed] at l4
    have := parseLenT_le e2
    omega

theorem fee_request {A n : Nat} : Grows (request A n) := fun st a st' e => by
  unfold request at e
  split at e <;> cases e
  simp [total]

theorem fee_getInt : Fee 0 391 (getIntT v) := by
  unfold getIntT
  refine Fee.one_bind0 fun x => ?_
  split
  · exact Fee.pure
  refine Fee.one_bind0 fun x => ?_
  split
  · exact Fee.pure
  refine Fee.one_bind0 fun x => Fee.one_bind0 fun x => Fee.one_bind0 fun x => ?_
  exact Fee.bind (c' := 0) fee_strToInt (fun _ => Fee.pure) (by omega)

/-- C60. Every call of the API but those that print, look up by key, convert by `atol`, `atoll` or
`atof`, or set a value to another takes at most `c.steps m` steps, where `m` is the number of bytes
it asks for: from any state, whatever it answers. -/
theorem C60_calls {fp : FP D} {F : Nat} {c : Call D} {r : Ans D} {n : Nat}
    (hc : c.steps (total st'.log - total st.log) = some n) (h : exec fp F c st = .ok (r, st')) :
    ∃ k, execT fp F c st = .ok ((r, k), st') ∧ k ≤ n := by
  obtain ⟨k, e⟩ := TM.of_val (execT_val fp F c) h
  refine ⟨k, e, ?_⟩
  have run : ∀ {c' : Nat}, Run (execT fp F c) st (fun _ k _ => k ≤ c') → c' ≤ n → k ≤ n := fun h hn => Nat.le_trans (h _ _ _ e) hn
  have ret : ∀ {α : Type} {x : TM α} {g : α → Ans D} {w c' : Nat}, execT fp F c = (do return g (← x)) → Fee w c' x →
      w * (total st'.log - total st.log) + c' ≤ n → k ≤ n := fun {α x g w c'} hx hf hn => by
    rw [hx] at e
    obtain ⟨a, m, st1, m', h1, e1, rfl⟩ := TM.bind_inv e
    cases e1
    have := hf _ _ _ _ h1
    have : w * (total st'.log - total st.log) = w * total st'.log - w * total st.log := Nat.mul_sub ..
    omega
  have readC : ∀ {x : TM (Option SPtr)} {w c' : Nat}, execT fp F c = (do return .bytes (← readCT (← x))) → Fee w c' x →
      w * (total st'.log - total st.log) + c' ≤ n → k ≤ n := fun {x w c'} hx hf hn => by
    rw [hx] at e
    obtain ⟨a, m, st1, m', h1, e1, rfl⟩ := TM.bind_inv e
    obtain ⟨a2, m2, st2, m3, h2, e2, rfl⟩ := TM.bind_inv e1
    cases e2
    obtain ⟨rfl, h3⟩ := TM.steps_inv h2
    have h4 : total st'.log = total st1.log := (free_readC _ _ _ h3).1
    have := hf _ _ _ _ h1
    rw [h4] at hn
    have : w * (total st1.log - total st.log) = w * total st1.log - w * total st.log := Nat.mul_sub ..
    omega
  have readL : ∀ {x : TM (Option (SPtr × Nat))} {c' : Nat}, execT fp F c = (do return .bytes (← readLT (← x))) → Fee 0 c' x →
      c' ≤ n → k ≤ n := fun {x c'} hx hf hn => by
    rw [hx] at e
    obtain ⟨a, m, st1, m', h1, e1, rfl⟩ := TM.bind_inv e
    obtain ⟨a2, m2, st2, m3, h2, e2, rfl⟩ := TM.bind_inv e1
    cases e2
    obtain ⟨rfl, h3⟩ := TM.steps_inv h2
    have := hf _ _ _ _ h1
    omega
  cases c
  case newAlloc => cases hc; exact ret rfl (Fee.steps0 (Nat.le_refl 1)) (by omega)
  case release A => cases hc; exact ret (g := fun _ => .unit) rfl (Fee.steps0 (Nat.le_refl 1)) (by omega)
  case newValue A => cases hc; exact ret (g := fun x => .handle (some x)) rfl (Fee.steps0 (Nat.le_refl 1)) (by omega)
  case parse f v b => cases hc; exact run (run_ret run_parse) (Nat.le_refl _)
  case text f v b => cases hc; exact run (run_ret run_text) (Nat.le_refl _)
  case key f v b => cases hc; exact run (run_ret run_key) (Nat.le_refl _)
  case null v => cases hc; exact ret (g := fun _ => .unit) rfl fee_null (by omega)
  case bool v b => cases hc; exact ret (g := fun _ => .unit) rfl fee_bool (by omega)
  case array v => cases hc; exact ret (g := fun _ => .unit) rfl fee_array (by omega)
  case object v => cases hc; exact ret (g := fun _ => .unit) rfl fee_obj (by omega)
  case int f v i =>
    cases hc
    cases f
    case int => exact ret rfl fee_int (by omega)
    case long => exact ret rfl fee_long (by omega)
    case longLong => exact ret rfl fee_longLong (by omega)
  case double v d => cases hc; exact ret rfl fee_double (by omega)
  case copy v => cases hc; exact ret rfl fee_copy (by omega)
  case move v => cases hc; exact ret rfl fee_move (by omega)
  case delAt v i => cases hc; exact ret rfl fee_arrayDel (by omega)
  case delKey v b => cases hc
  case set b v w => cases b <;> cases hc
  case add o q v w =>
    cases o <;> cases q <;> cases hc
    · exact ret rfl fee_arrayAdd (by omega)
    · exact ret rfl fee_arrayAddFast (by omega)
    · exact ret rfl fee_objAdd (by omega)
    · exact ret rfl fee_objAddFast (by omega)
  case nav f v =>
    cases f <;> cases hc
    case begin => exact ret rfl fee_begin (by omega)
    case next => exact ret rfl fee_next (by omega)
    case array i => exact ret rfl fee_arrayGet (by omega)
  case get f v =>
    cases f <;> cases hc
    case type => exact ret rfl fee_getType (by omega)
    case size => exact ret rfl fee_sizeOf (by omega)
    case null => exact ret rfl fee_isNull (by omega)
    case bool => exact ret rfl fee_getBool (by omega)
    case str => exact readC rfl fee_getStr (by omega)
    case strFast => exact readL rfl fee_strFast (by omega)
    case unStr => exact readC rfl fee_getUnEscapeStr (by omega)
    case numStr => exact readC rfl fee_getNumStr (by omega)
    case numFast => exact readL rfl fee_numFast (by omega)
    case int => exact ret rfl fee_getInt (by omega)
    case key => exact readC rfl fee_getKey (by omega)
    case keyFast => exact readL rfl fee_keyFast (by omega)
    case unKey => exact readC rfl fee_getUnEscapeKey (by omega)

/-- C60. Copying a document takes time linear in its size: the number of nodes and bytes of text
(`Json.held`, 72 for each node and 1 for each byte). -/
theorem C60_copy {P : Addr → Prop} {G : Graph} {a A : Nat} {t : Json} {F : Nat} {r : Option Addr} (hr : Ready st P G v (some a) A)
    (hs : Shows st v t) (h : copy F v st = .ok (r, st')) :
    ∃ k, copyT F v st = .ok ((r, k), st') ∧ k ≤ t.held + ((G.keyOf a).elim 0 List.length) + 104 := by
  obtain ⟨k, e⟩ := TM.of_val (copyT_val F v) h
  refine ⟨k, e, ?_⟩
  have h1 := copyT_run _ _ _ e
  have h2 := C55_copy hr hs h
  omega

/-- The steps of the call `c v` where `v` is parsed from `b`. -/
def callStepsOf (c : Addr → Call Unit) (b : Bytes) : Option Nat :=
  match (do
    let v ← newValue (← newAllocator)
    let p ← callerText (b ++ [0])
    let _ ← parseFast v p
    execT (⟨fun _ => [], fun _ => ()⟩ : FP Unit) 99 (c v) : M (Ans Unit × Nat)) (St.init fun _ => 3) with
  | .ok ((_, k), _) => some k
  | _ => none

example : callStepsOf .copy b!"[1,{\"a\":[true,[]]},\"x\"]" = some 142 := by decide +kernel
example : callStepsOf (.nav (.array 2)) b!"[1,{\"a\":[true,[]]},\"x\"]" = some 6 := by decide +kernel
example : callStepsOf (.delAt · 2) b!"[1,{\"a\":[true,[]]},\"x\"]" = some 20 := by decide +kernel
example : callStepsOf (.get .unStr) b!"\"a\\n\\u00e9b\"" = some 22 := by decide +kernel
example : callStepsOf (.get .int) b!"-123" = some 142 := by decide +kernel
example : callStepsOf (.text .strEsc · b!"a\nb") b!"-123" = some 32 := by decide +kernel

end

end ZJ
