import Verif.TimeVal
import Verif.TimeApi

/-
Without the counter the functions of `TimeApi` are those of the model.
-/

set_option linter.unusedSimpArgs false

namespace ZJ

theorem TM.val_bind_eq {α β : Type} {x : TM α} {f : α → TM β} {y : M α} {g : α → M β} (h : x.val = y)
    (hf : ∀ a, (f a).val = g a) : (x >>= f).val = y >>= g := by
  rw [TM.val_bind, h]
  congr 1
  funext a
  exact hf a
theorem TM.val_ite_eq {α : Type} {c : Prop} [Decidable c] {x y : TM α} {x' y' : M α} (hx : x.val = x') (hy : y.val = y') :
    (if c then x else y).val = if c then x' else y' := by
  split
  · exact hx
  · exact hy

theorem TR.val_bind_eq {α β : Type} {x : TR α} {f : α → TR β} {y : Res α} {g : α → Res β} (h : x.val = y)
    (hf : ∀ a, (f a).val = g a) : (x >>= f).val = y >>= g := by
  rw [TR.val_bind, h]
  congr 1
  funext a
  exact hf a
theorem TR.val_ite_eq {α : Type} {c : Prop} [Decidable c] {x y : TR α} {x' y' : Res α} (hx : x.val = x') (hy : y.val = y') :
    (if c then x else y).val = if c then x' else y' := by
  split
  · exact hx
  · exact hy

theorem Res.bind_assoc {α β γ : Type} (x : Res α) (f : α → Res β) (g : β → Res γ) :
    (x >>= f) >>= g = x >>= fun a => f a >>= g := by
  cases x <;> rfl

/-- Compares a function with its version that counts, statement by statement. -/
macro "erase" : tactic => `(tactic| repeat' (first
  | exact TM.val_one _
  | exact TM.val_pure _
  | exact TM.val_steps _ _
  | (simp; done)
  | refine TM.val_bind_eq ?_ fun _ => ?_
  | refine TM.val_ite_eq ?_ ?_
  | (split <;> (try simp only [*]))))

@[simp] theorem growLoopT_val (d : Nat) : ∀ fuel s need, (growLoopT d fuel s need).val = growLoop d fuel s need
  | 0, _, _ => rfl
  | fuel + 1, s, need => by simp [growLoopT, growLoop, growLoopT_val d fuel]

@[simp] theorem appendBytesT_val (z : ZStr) (s : Bytes) : (appendBytesT z s).val = appendBytes z s := by
  unfold appendBytesT appendBytes
  refine TM.val_bind_eq (TM.val_one _) fun _ => TM.val_bind_eq ?_ fun _ => ?_
  · unfold growBytesT
    refine TM.val_ite_eq ?_ ?_ <;> erase
  · erase

@[simp] theorem appendStrT_val (z : ZStr) (p : SPtr) (len : Nat) : (appendStrT z p len).val = appendStr z p len := by
  unfold appendStrT appendStr
  erase

@[simp] theorem appendCharT_val (z : ZStr) (c : Byte) : (appendCharT z c).val = appendChar z c := by
  unfold appendCharT appendChar
  refine TM.val_bind_eq (TM.val_one _) fun _ => TM.val_bind_eq ?_ fun _ => ?_
  · unfold growCharT
    refine TM.val_ite_eq ?_ ?_ <;> erase
  · erase

@[simp] theorem newOutT_val (A : Nat) (size : Cfg → Nat) : (newOutT A size).val = newOut A size := TM.val_steps _ _

@[simp] theorem addOutT_val (cap : Nat) (out : Bytes) (b : Bytes) : (addOutT cap out b).val = addOut cap out b := by
  simp [addOutT, addOut]

@[simp] theorem consumeHexUT_val (s : Bytes) (i cp : Nat) : (consumeHexUT s i cp).val = consumeHexU s i cp := by
  simp [consumeHexUT, consumeHexU]

theorem Res.ub_eq {α β : Type} (e : UB) (f g : α → Res β) : ((.ub e : Res α) >>= f) = (.ub e : Res α) >>= g := rfl
theorem Res.timeout_eq {α β : Type} (f g : α → Res β) : ((.timeout : Res α) >>= f) = (.timeout : Res α) >>= g := rfl

@[simp] theorem unEscapeLoopT_val (s : Bytes) (len cap : Nat) : ∀ fuel i out,
    (unEscapeLoopT s len cap fuel i out).val = unEscapeLoop s len cap fuel i out := by
  intro fuel
  induction fuel with
  | zero => intro i out; rfl
  | succ fuel ih =>
    intro i out
    unfold unEscapeLoopT unEscapeLoop
    with_reducible refine TR.val_ite_eq ?_ ?_
    · with_reducible refine TR.val_bind_eq (rdT_val _ _) fun c => ?_
      with_reducible refine TR.val_ite_eq ?_ ?_
      · with_reducible refine TR.val_bind_eq (rdT_val _ _) fun d => ?_
        cases unescLetter d with
        | some x => exact TR.val_bind_eq (addOutT_val _ _ _) fun _ => ih _ _
        | none =>
          with_reducible refine TR.val_ite_eq ?_ (ih _ _)
          rw [TR.val_bind]
          unfold unEscapeUT
          rw [TR.val_bind, consumeHexUT_val, Res.bind_assoc]
          cases h : consumeHexU s (i + 2) 0 with
          | ub _ => exact Res.ub_eq _ _ _
          | timeout => exact Res.timeout_eq _ _
          | ok x =>
          obtain ⟨j, cp⟩ := x
          refine (Res.ok_bind _ _).trans (Eq.trans ?_ (Res.ok_bind _ _).symm)
          show _ = (if 55296 ≤ cp ∧ cp ≤ 56319 then do
              let __x ← consumeHexU s (j + 2) 0
              match __x with
                | (i, cp1) => do
                  let out ← addOut cap out (utf8Bytes (surrogatePair cp cp1))
                  unEscapeLoop s len cap fuel i out
            else do
              let out ← addOut cap out (utf8Bytes cp)
              unEscapeLoop s len cap fuel j out)
          by_cases hc : 0xD800 ≤ cp ∧ cp ≤ 0xDBFF
          · rw [TR.val_ite, if_pos hc, if_pos hc, TR.val_bind, consumeHexUT_val, Res.bind_assoc]
            cases h' : consumeHexU s (j + 2) 0 with
            | ub _ => exact Res.ub_eq _ _ _
            | timeout => exact Res.timeout_eq _ _
            | ok y =>
            obtain ⟨j', cp'⟩ := y
            refine (Res.ok_bind _ _).trans (Eq.trans ?_ (Res.ok_bind _ _).symm)
            show _ = (addOut cap out (utf8Bytes (surrogatePair cp cp')) >>= fun out => unEscapeLoop s len cap fuel j' out)
            rw [TR.val_bind, addOutT_val, Res.bind_assoc]
            refine congrArg _ (funext fun o => ?_)
            rw [TR.val_pure, Res.ok_bind, ih]
          · rw [TR.val_ite, if_neg hc, if_neg hc, TR.val_bind, addOutT_val, Res.bind_assoc]
            refine congrArg _ (funext fun o => ?_)
            rw [TR.val_pure, Res.ok_bind, ih]
      · exact TR.val_bind_eq (addOutT_val _ _ _) fun _ => ih _ _
    · rfl

@[simp] theorem unEscapeStrT_val (s : Bytes) (len cap : Nat) : (unEscapeStrT s len cap).val = unEscapeStr s len cap := by
  simp [unEscapeStrT, unEscapeStr]

@[simp] theorem escLenLoopT_val : ∀ s l, (escLenLoopT s l).val = escLenLoop s l
  | [], _ => rfl
  | c :: r, l => by simp [escLenLoopT, escLenLoop, escLenLoopT_val r]

@[simp] theorem escOutLoopT_val (cap : Nat) : ∀ s l, (escOutLoopT cap s l).val = escOutLoop cap s l
  | [], _ => rfl
  | c :: r, l => by simp [escOutLoopT, escOutLoop, escOutLoopT_val cap r]

@[simp] theorem escapeStrT_val (s : Bytes) : (escapeStrT s).val = escapeStr s := by
  simp [escapeStrT, escapeStr]

@[simp] theorem escLenLoopNT_val : ∀ n s l, (escLenLoopNT n s l).val = escLenLoopN n s l
  | 0, _, _ => rfl
  | _ + 1, [], _ => rfl
  | n + 1, c :: r, l => by simp [escLenLoopNT, escLenLoopN, escLenLoopNT_val n r]

@[simp] theorem escOutLoopNT_val (cap : Nat) : ∀ n s l, (escOutLoopNT cap n s l).val = escOutLoopN cap n s l
  | 0, _, _ => rfl
  | _ + 1, [], _ => rfl
  | n + 1, c :: r, l => by simp [escOutLoopNT, escOutLoopN, escOutLoopNT_val cap n r]

@[simp] theorem escapeStrLenT_val (s : Bytes) (n : Nat) : (escapeStrLenT s n).val = escapeStrLen s n := by
  simp [escapeStrLenT, escapeStrLen]

@[simp] theorem atoiDigitsT_val : ∀ s n, (atoiDigitsT s n).val = atoiDigits s n
  | [], _ => rfl
  | c :: r, n => by
    unfold atoiDigitsT atoiDigits
    rw [TR.val_bind, TR.val_steps]
    refine (Res.ok_bind _ _).trans ?_
    refine TR.val_ite_eq (atoiDigitsT_val r _) (TR.val_pure _)

@[simp] theorem atoiSignedT_val (s : Bytes) : (atoiSignedT s).val = atoiSigned s := by
  unfold atoiSignedT atoiSigned
  split
  · rfl
  · refine TR.val_ite_eq ?_ (TR.val_ite_eq ?_ ?_) <;>
      exact TR.val_bind_eq (atoiDigitsT_val _ _) fun _ => TR.val_pure _

@[simp] theorem atoiBitsT_val (bits : Nat) (s : Bytes) : (atoiBitsT bits s).val = atoiBits bits s := by
  unfold atoiBitsT atoiBits atoiRaw
  rw [TR.val_bind, TR.val_steps]
  refine (Res.ok_bind _ _).trans ?_
  refine TR.val_bind_eq (atoiSignedT_val _) fun _ => ?_
  exact TR.val_ite_eq (TR.val_pure _) rfl

@[simp] theorem atofTextT_val : ∀ s, (atofTextT s).val = atofText s
  | [] => rfl
  | c :: r => by
    unfold atofTextT atofText
    rw [TR.val_bind, TR.val_steps]
    refine (Res.ok_bind _ _).trans ?_
    refine TR.val_ite_eq ?_ (TR.val_pure _)
    exact TR.val_bind_eq (atofTextT_val r) fun _ => TR.val_pure _

@[simp] theorem strToIntT_val (p : SPtr) (len : Nat) : (strToIntT p len).val = strToInt p len := by
  unfold strToIntT strToInt
  erase

@[simp] theorem strToLongT_val (p : SPtr) (len : Nat) : (strToLongT p len).val = strToLong p len := by
  unfold strToLongT strToLong
  erase

@[simp] theorem strToLongLongT_val (p : SPtr) (len : Nat) : (strToLongLongT p len).val = strToLongLong p len := by
  unfold strToLongLongT strToLongLong
  erase

@[simp] theorem strToDoubleT_val {D} (fp : FP D) (p : SPtr) (len : Nat) : (strToDoubleT fp p len).val = strToDouble fp p len := by
  unfold strToDoubleT strToDouble
  erase

@[simp] theorem putValueT_val (z : ZStr) (node : Addr) : (putValueT z node).val = putValue z node := by
  unfold putValueT putValue
  erase

@[simp] theorem putKeyT_val (z : ZStr) (node : Addr) : (putKeyT z node).val = putKey z node := by
  unfold putKeyT putKey
  erase

@[simp] theorem stringifyLoopT_val (v : Addr) : ∀ fuel pc node z,
    (stringifyLoopT v fuel pc node z).val = stringifyLoop v fuel pc node z
  | 0, pc, _, _ => by cases pc <;> simp [stringifyLoopT, stringifyLoop]
  | fuel + 1, .head, node, z => by
    have ih := stringifyLoopT_val v fuel
    unfold stringifyLoopT stringifyLoop
    erase
    all_goals exact ih _ _ _
  | fuel + 1, .close, node, z => by
    have ih := stringifyLoopT_val v fuel
    unfold stringifyLoopT stringifyLoop
    erase
    all_goals exact ih _ _ _

@[simp] theorem stringifyT_val (fuel : Nat) (v : Addr) : (stringifyT fuel v).val = stringify fuel v := by
  unfold stringifyT stringify
  erase

@[simp] theorem copyOutT_val (A : Nat) (p : SPtr) (len : Nat) : (copyOutT A p len).val = copyOut A p len := by
  unfold copyOutT copyOut
  erase

@[simp] theorem getStrFastT_val (v : Addr) : (getStrFastT v).val = getStrFast v := by
  unfold getStrFastT getStrFast
  erase

@[simp] theorem getStrT_val (v : Addr) : (getStrT v).val = getStr v := by
  unfold getStrT getStr
  erase

@[simp] theorem getUnEscapeStrT_val (v : Addr) : (getUnEscapeStrT v).val = getUnEscapeStr v := by
  unfold getUnEscapeStrT getUnEscapeStr
  erase

@[simp] theorem getNumFastT_val (v : Addr) : (getNumFastT v).val = getNumFast v := by
  unfold getNumFastT getNumFast
  erase

@[simp] theorem getNumStrT_val (v : Addr) : (getNumStrT v).val = getNumStr v := by
  unfold getNumStrT getNumStr
  erase

@[simp] theorem getDoubleT_val {D} (fp : FP D) (v : Addr) : (getDoubleT fp v).val = getDouble fp v := by
  unfold getDoubleT getDouble
  erase

@[simp] theorem getIntT_val (v : Addr) : (getIntT v).val = getInt v := by
  unfold getIntT getInt
  erase

@[simp] theorem getLongT_val (v : Addr) : (getLongT v).val = getLong v := by
  unfold getLongT getLong
  erase

@[simp] theorem getLongLongT_val (v : Addr) : (getLongLongT v).val = getLongLong v := by
  unfold getLongLongT getLongLong
  erase

@[simp] theorem getBoolT_val (v : Addr) : (getBoolT v).val = getBool v := by
  unfold getBoolT getBool
  erase

@[simp] theorem isNullT_val (v : Addr) : (isNullT v).val = isNull v := by
  unfold isNullT isNull
  erase

@[simp] theorem getKeyT_val (v : Addr) : (getKeyT v).val = getKey v := by
  unfold getKeyT getKey
  erase

@[simp] theorem getUnEscapeKeyT_val (v : Addr) : (getUnEscapeKeyT v).val = getUnEscapeKey v := by
  unfold getUnEscapeKeyT getUnEscapeKey
  erase

@[simp] theorem getKeyFastT_val (v : Addr) : (getKeyFastT v).val = getKeyFast v := by
  unfold getKeyFastT getKeyFast
  erase

@[simp] theorem strIsEqualT_val : ∀ s t n, (strIsEqualT s t n).val = strIsEqual s t n
  | [], _, _ => rfl
  | _ :: _, _, 0 => by simp [strIsEqualT, strIsEqual]
  | _ :: _, [], _ + 1 => rfl
  | c :: r, d :: t, n + 1 => by simp [strIsEqualT, strIsEqual, strIsEqualT_val r t n]

@[simp] theorem bytesEqNT_val : ∀ s t n, (bytesEqNT s t n).val = bytesEqN s t n
  | [], _, 0 => rfl
  | _ :: _, [], 0 => rfl
  | _ :: _, _ :: _, 0 => rfl
  | c :: r, d :: t, n + 1 => by
    show (TR.val (do
      TR.steps 2 (.ok ())
      if c ≠ d then pure false else bytesEqNT r t n)) = if c ≠ d then .ok false else bytesEqN r t n
    rw [TR.val_bind, TR.val_steps]
    show (TR.val (if c ≠ d then pure false else bytesEqNT r t n)) = _
    split
    · rfl
    · exact bytesEqNT_val r t n
  | [], _, _ + 1 => rfl
  | _ :: _, [], _ + 1 => rfl

@[simp] theorem strIsEqualLenT_val (a : Bytes) (m : Nat) (b : Bytes) (n : Nat) :
    (strIsEqualLenT a m b n).val = strIsEqualLen a m b n := by simp [strIsEqualLenT, strIsEqualLen]

@[simp] theorem objGetLoopT_val (key : SPtr) : ∀ fuel o, (objGetLoopT key fuel o).val = objGetLoop key fuel o
  | 0, o => by cases o <;> simp [objGetLoopT, objGetLoop]
  | _ + 1, none => by simp [objGetLoopT, objGetLoop]
  | fuel + 1, some n => by
    have ih := objGetLoopT_val key fuel
    unfold objGetLoopT objGetLoop
    erase
    all_goals exact ih _

@[simp] theorem objGetT_val (fuel : Nat) (v : Addr) (key : SPtr) : (objGetT fuel v key).val = objGet fuel v key := by
  unfold objGetT objGet
  erase

@[simp] theorem objGetLenLoopT_val (key : SPtr) (len : Nat) : ∀ fuel o,
    (objGetLenLoopT key len fuel o).val = objGetLenLoop key len fuel o
  | 0, o => by cases o <;> simp [objGetLenLoopT, objGetLenLoop]
  | _ + 1, none => by simp [objGetLenLoopT, objGetLenLoop]
  | fuel + 1, some n => by
    have ih := objGetLenLoopT_val key len fuel
    unfold objGetLenLoopT objGetLenLoop
    erase
    all_goals exact ih _

@[simp] theorem objGetLenT_val (fuel : Nat) (v : Addr) (key : SPtr) (len : Nat) : (objGetLenT fuel v key len).val = objGetLen fuel v key len := by
  unfold objGetLenT objGetLen
  erase

@[simp] theorem getTypeT_val (v : Addr) : (getTypeT v).val = getType v := by
  unfold getTypeT getType
  erase

@[simp] theorem sizeOfT_val (v : Addr) : (sizeOfT v).val = sizeOf v := by
  unfold sizeOfT sizeOf
  erase

@[simp] theorem arrayGetLoopT_val (index : Nat) : ∀ fuel i o,
    (arrayGetLoopT index fuel i o).val = arrayGetLoop index fuel i o
  | 0, _, o => by cases o <;> simp [arrayGetLoopT, arrayGetLoop]
  | _ + 1, _, none => by simp [arrayGetLoopT, arrayGetLoop]
  | fuel + 1, i, some n => by
    have ih := arrayGetLoopT_val index fuel
    unfold arrayGetLoopT arrayGetLoop
    erase
    all_goals exact ih _ _

@[simp] theorem arrayGetT_val (fuel : Nat) (v : Addr) (index : Nat) : (arrayGetT fuel v index).val = arrayGet fuel v index := by
  unfold arrayGetT arrayGet
  erase

@[simp] theorem begin_T_val (v : Addr) : (begin_T v).val = begin_ v := by
  unfold begin_T begin_
  erase

@[simp] theorem next_T_val (v : Addr) : (next_T v).val = next_ v := by
  unfold next_T next_
  erase

@[simp] theorem copyKeyT_val (A : Nat) (node des : Addr) : (copyKeyT A node des).val = copyKey A node des := by
  unfold copyKeyT copyKey
  erase

@[simp] theorem copyBodyT_val (A : Nat) (node des : Addr) (t : JType) : (copyBodyT A node des t).val = copyBody A node des t := by
  cases t <;> unfold copyBodyT copyBody <;> erase

@[simp] theorem copyNodeT_val (A : Nat) (node des : Addr) : (copyNodeT A node des).val = copyNode A node des := by
  unfold copyNodeT copyNode
  erase

@[simp] theorem copyLoopT_val (A : Nat) (vv : Addr) : ∀ fuel pc node des,
    (copyLoopT A vv fuel pc node des).val = copyLoop A vv fuel pc node des
  | 0, pc, _, _ => by cases pc <;> simp [copyLoopT, copyLoop]
  | fuel + 1, pc, node, des => by
    have ih := copyLoopT_val A vv fuel
    cases pc <;> unfold copyLoopT copyLoop <;> erase
    all_goals exact ih _ _ _

@[simp] theorem valueCopyFromT_val (fuel : Nat) (v vv : Addr) : (valueCopyFromT fuel v vv).val = valueCopyFrom fuel v vv := by
  unfold valueCopyFromT valueCopyFrom
  erase

@[simp] theorem copyT_val (fuel : Nat) (v : Addr) : (copyT fuel v).val = copy fuel v := by
  unfold copyT copy
  erase

@[simp] theorem valNT_val (v : Addr) : (valNT v).val = valN v := by
  unfold valNT valN
  erase

@[simp] theorem unlinkPrevT_val (f a : Addr) : (unlinkPrevT f a).val = unlinkPrev f a := by
  unfold unlinkPrevT unlinkPrev
  erase

@[simp] theorem unlinkNextT_val (f a : Addr) : (unlinkNextT f a).val = unlinkNext f a := by
  unfold unlinkNextT unlinkNext
  erase

@[simp] theorem moveT_val (v : Addr) : (moveT v).val = move v := by
  unfold moveT move
  erase

@[simp] theorem ensureNodeT_val (v : Addr) : (ensureNodeT v).val = ensureNode v := by
  unfold ensureNodeT ensureNode
  erase

@[simp] theorem setScalarT_val (v : Addr) (t : JType) (p : SPtr) (len : Nat) : (setScalarT v t p len).val = setScalar v t p len := by
  unfold setScalarT setScalar
  erase

@[simp] theorem setNullT_val (v : Addr) : (setNullT v).val = setNull v := by
  unfold setNullT setNull
  erase

@[simp] theorem setBoolT_val (v : Addr) (b : Bool) : (setBoolT v b).val = setBool v b := by
  unfold setBoolT setBool
  erase

@[simp] theorem checkNumAtT_val (p : SPtr) : (checkNumAtT p).val = checkNumAt p := by
  unfold checkNumAtT checkNumAt
  erase

@[simp] theorem checkStrAtT_val (p : SPtr) : (checkStrAtT p).val = checkStrAt p := by
  unfold checkStrAtT checkStrAt
  erase

@[simp] theorem fillCacheT_val (A : Nat) (p : SPtr) (len : Nat) : (fillCacheT A p len).val = fillCache A p len := by
  unfold fillCacheT fillCache
  erase

@[simp] theorem checkStrLenAtT_val (A : Nat) (p : SPtr) (len : Nat) : (checkStrLenAtT A p len).val = checkStrLenAt A p len := by
  unfold checkStrLenAtT checkStrLenAt
  erase

@[simp] theorem checkNumLenAtT_val (A : Nat) (p : SPtr) (len : Nat) : (checkNumLenAtT A p len).val = checkNumLenAt A p len := by
  unfold checkNumLenAtT checkNumLenAt
  erase

@[simp] theorem dupT_val (A : Nat) (p : SPtr) (len : Nat) : (dupT A p len).val = dup A p len := by
  unfold dupT dup
  erase

@[simp] theorem setNumStrFastT_val (v : Addr) (p : SPtr) : (setNumStrFastT v p).val = setNumStrFast v p := by
  unfold setNumStrFastT setNumStrFast
  erase

@[simp] theorem setNumStrLenFastT_val (v : Addr) (p : SPtr) (len : Nat) : (setNumStrLenFastT v p len).val = setNumStrLenFast v p len := by
  unfold setNumStrLenFastT setNumStrLenFast
  erase

@[simp] theorem setNumStrT_val (v : Addr) (p : SPtr) : (setNumStrT v p).val = setNumStr v p := by
  unfold setNumStrT setNumStr
  erase

@[simp] theorem setNumStrLenT_val (v : Addr) (p : SPtr) (len : Nat) : (setNumStrLenT v p len).val = setNumStrLen v p len := by
  unfold setNumStrLenT setNumStrLen
  erase

@[simp] theorem setDoubleT_val {D} (fp : FP D) (v : Addr) (d : D) : (setDoubleT fp v d).val = setDouble fp v d := by
  unfold setDoubleT setDouble
  erase

@[simp] theorem setIntT_val (v : Addr) (n : Int) : (setIntT v n).val = setInt v n := by
  unfold setIntT setInt
  erase

@[simp] theorem setLongT_val (v : Addr) (n : Int) : (setLongT v n).val = setLong v n := by
  unfold setLongT setLong
  erase

@[simp] theorem setLongLongT_val (v : Addr) (n : Int) : (setLongLongT v n).val = setLongLong v n := by
  unfold setLongLongT setLongLong
  erase

@[simp] theorem setStrFastT_val (v : Addr) (p : SPtr) : (setStrFastT v p).val = setStrFast v p := by
  unfold setStrFastT setStrFast
  erase

@[simp] theorem escapeAtT_val (A : Nat) (p : SPtr) : (escapeAtT A p).val = escapeAt A p := by
  unfold escapeAtT escapeAt
  erase

@[simp] theorem escapeLenAtT_val (A : Nat) (p : SPtr) (len : Nat) : (escapeLenAtT A p len).val = escapeLenAt A p len := by
  unfold escapeLenAtT escapeLenAt
  erase

@[simp] theorem setStrEscapeT_val (v : Addr) (p : SPtr) : (setStrEscapeT v p).val = setStrEscape v p := by
  unfold setStrEscapeT setStrEscape
  erase

@[simp] theorem setStrLenEscapeT_val (v : Addr) (p : SPtr) (len : Nat) : (setStrLenEscapeT v p len).val = setStrLenEscape v p len := by
  unfold setStrLenEscapeT setStrLenEscape
  erase

@[simp] theorem setStrLenFastT_val (v : Addr) (p : SPtr) (len : Nat) : (setStrLenFastT v p len).val = setStrLenFast v p len := by
  unfold setStrLenFastT setStrLenFast
  erase

@[simp] theorem setStrT_val (v : Addr) (p : SPtr) : (setStrT v p).val = setStr v p := by
  unfold setStrT setStr
  erase

@[simp] theorem setStrLenT_val (v : Addr) (p : SPtr) (len : Nat) : (setStrLenT v p len).val = setStrLen v p len := by
  unfold setStrLenT setStrLen
  erase

@[simp] theorem keyTargetT_val (v : Addr) : (keyTargetT v).val = keyTarget v := by
  unfold keyTargetT keyTarget
  erase

@[simp] theorem setKeyFastT_val (v : Addr) (p : SPtr) : (setKeyFastT v p).val = setKeyFast v p := by
  unfold setKeyFastT setKeyFast
  erase

@[simp] theorem setKeyEscapeT_val (v : Addr) (p : SPtr) : (setKeyEscapeT v p).val = setKeyEscape v p := by
  unfold setKeyEscapeT setKeyEscape
  erase

@[simp] theorem setKeyLenEscapeT_val (v : Addr) (p : SPtr) (len : Nat) : (setKeyLenEscapeT v p len).val = setKeyLenEscape v p len := by
  unfold setKeyLenEscapeT setKeyLenEscape
  erase

@[simp] theorem setKeyLenFastT_val (v : Addr) (p : SPtr) (len : Nat) : (setKeyLenFastT v p len).val = setKeyLenFast v p len := by
  unfold setKeyLenFastT setKeyLenFast
  erase

@[simp] theorem setKeyCT_val (v : Addr) (p : SPtr) : (setKeyCT v p).val = setKeyC v p := by
  unfold setKeyCT setKeyC
  erase

@[simp] theorem setKeyLenCT_val (v : Addr) (p : SPtr) (len : Nat) : (setKeyLenCT v p len).val = setKeyLenC v p len := by
  unfold setKeyLenCT setKeyLenC
  erase

@[simp] theorem setArrayT_val (v : Addr) : (setArrayT v).val = setArray v := by
  unfold setArrayT setArray
  erase

@[simp] theorem setObjT_val (v : Addr) : (setObjT v).val = setObj v := by
  unfold setObjT setObj
  erase

@[simp] theorem adoptT_val (f : Addr) : ∀ fuel o, (adoptT f fuel o).val = adopt f fuel o
  | 0, o => by cases o <;> simp [adoptT, adopt]
  | _ + 1, none => by simp [adoptT, adopt]
  | fuel + 1, some n => by
    have ih := adoptT_val f fuel
    unfold adoptT adopt
    erase
    all_goals exact ih _

@[simp] theorem graftT_val (fuel : Nat) (a x e : Addr) : (graftT fuel a x e).val = graft fuel a x e := by
  unfold graftT graft
  erase

@[simp] theorem setFastT_val (fuel : Nat) (v vv : Addr) : (setFastT fuel v vv).val = setFast fuel v vv := by
  unfold setFastT setFast
  erase

@[simp] theorem setT_val (fuel : Nat) (v vv : Addr) : (setT fuel v vv).val = set fuel v vv := by
  unfold setT set
  erase

@[simp] theorem attachT_val (f x : Addr) : (attachT f x).val = attach f x := by
  unfold attachT attach
  erase

@[simp] theorem objAddFastT_val (v vv : Addr) : (objAddFastT v vv).val = objAddFast v vv := by
  unfold objAddFastT objAddFast
  erase

@[simp] theorem objAddT_val (fuel : Nat) (v vv : Addr) : (objAddT fuel v vv).val = objAdd fuel v vv := by
  unfold objAddT objAdd
  erase

@[simp] theorem arrayAddFastT_val (v vv : Addr) : (arrayAddFastT v vv).val = arrayAddFast v vv := by
  unfold arrayAddFastT arrayAddFast
  erase

@[simp] theorem arrayAddT_val (fuel : Nat) (v vv : Addr) : (arrayAddT fuel v vv).val = arrayAdd fuel v vv := by
  unfold arrayAddT arrayAdd
  erase

@[simp] theorem arrayDelT_val (fuel : Nat) (v : Addr) (index : Nat) : (arrayDelT fuel v index).val = arrayDel fuel v index := by
  unfold arrayDelT arrayDel
  erase

@[simp] theorem objDelT_val (fuel : Nat) (v : Addr) (key : SPtr) : (objDelT fuel v key).val = objDel fuel v key := by
  unfold objDelT objDel
  erase

theorem withTextT_val {α : Type} (d : Bytes) (keep : Bool) {f : SPtr → TM α} {g : SPtr → M α} (h : ∀ p, (f p).val = g p) :
    (withTextT d keep f).val = withText d keep g := by
  unfold withTextT withText
  refine TM.val_bind_eq (TM.val_steps _ _) fun p => TM.val_bind_eq (h p) fun _ => ?_
  erase

@[simp] theorem readCT_val (p : Option SPtr) : (readCT p).val = readC p := TM.val_steps _ _

@[simp] theorem readLT_val (p : Option (SPtr × Nat)) : (readLT p).val = readL p := TM.val_steps _ _

@[simp] theorem GetFn.runT_val {D : Type} (fp : FP D) (F : Nat) (f : GetFn) (v : Addr) : (f.runT fp F v).val = f.run fp F v := by
  cases f <;> simp [GetFn.runT, GetFn.run]

@[simp] theorem NavFn.runT_val (F : Nat) (f : NavFn) (v : Addr) : (f.runT F v).val = f.run F v := by
  cases f with
  | obj k => exact withTextT_val _ _ fun p => objGetT_val _ _ _
  | objLen k => exact withTextT_val _ _ fun p => objGetLenT_val _ _ _ _
  | _ => simp [NavFn.runT, NavFn.run]

/-- The version that counts does the same and returns the same. -/
theorem execT_val {D : Type} (fp : FP D) (F : Nat) (c : Call D) : (execT fp F c).val = exec fp F c := by
  cases c with
  | parse f v b =>
    exact TM.val_bind_eq (withTextT_val _ _ fun p => by cases f <;> simp [ParseFn.runT, ParseFn.run]) fun _ => rfl
  | text f v b =>
    exact TM.val_bind_eq (withTextT_val _ _ fun p => by cases f <;> simp [TextFn.runT, TextFn.run]) fun _ => rfl
  | key f v b =>
    exact TM.val_bind_eq (withTextT_val _ _ fun p => by cases f <;> simp [KeyFn.runT, KeyFn.run]) fun _ => rfl
  | delKey v k => exact TM.val_bind_eq (withTextT_val _ _ fun p => objDelT_val _ _ _) fun _ => rfl
  | add o f v w => cases o <;> cases f <;> simp [execT, exec]
  | set f v w => cases f <;> simp [execT, exec]
  | int f v n => cases f <;> simp [execT, exec, IntFn.runT, IntFn.run]
  | _ => simp [execT, exec]

end ZJ
