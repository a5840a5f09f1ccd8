import Verif.Time

/-
Without the counter the functions of `Time` are those of the model.
-/

set_option linter.unusedSimpArgs false

namespace ZJ

namespace TR
variable {α β : Type}

@[simp] theorem val_pure (a : α) : (pure a : TR α).val = .ok a := rfl
@[simp] theorem val_steps (n : Nat) (r : Res α) : (TR.steps n r).val = r := by cases r <;> rfl
@[simp] theorem val_bind (x : TR α) (f : α → TR β) : (x >>= f).val = x.val >>= fun a => (f a).val := by
  cases x with
  | ok q =>
    obtain ⟨a, m⟩ := q
    show TR.val (match f a with | .ok (b, n) => _ | .ub u => _ | .timeout => _) = (f a).val
    cases hf : f a <;> simp [TR.val]
  | ub u => rfl
  | timeout => rfl
@[simp] theorem val_ite (c : Prop) [Decidable c] (x y : TR α) : (if c then x else y).val = if c then x.val else y.val := by
  split <;> rfl
@[simp] theorem val_timeout : TR.val (.timeout : Res (α × Nat)) = .timeout := rfl
@[simp] theorem val_ub (u : UB) : TR.val (.ub u : Res (α × Nat)) = .ub u := rfl

end TR

@[simp] theorem rdT_val (s : Bytes) (i : Nat) : (rdT s i).val = rd s i := by simp [rdT]

@[simp] theorem skipLoopT_val (s : Bytes) : ∀ fuel i, (skipLoopT s fuel i).val = skipLoop s fuel i
  | 0, _ => rfl
  | fuel + 1, i => by simp [skipLoopT, skipLoop, skipLoopT_val s fuel]

@[simp] theorem skipT_val (s : Bytes) (i : Nat) : (skipT s i).val = skip s i := by simp [skipT, skip]
@[simp] theorem peekT_val (s : Bytes) (i : Nat) : (peekT s i).val = peek s i := by simp [peekT, peek]
@[simp] theorem consumeT_val (c : Byte) (s : Bytes) (i : Nat) : (consumeT c s i).val = consume c s i := by
  simp [consumeT, consume]
@[simp] theorem peekAndConsumeT_val (c : Byte) (s : Bytes) (i : Nat) :
    (peekAndConsumeT c s i).val = peekAndConsume c s i := by
  simp [peekAndConsumeT, peekAndConsume]
@[simp] theorem consumeFalseT_val (s : Bytes) (lim i : Nat) : (consumeFalseT s lim i).val = consumeFalse s lim i := by
  simp [consumeFalseT]
@[simp] theorem consumeTrueT_val (s : Bytes) (lim i : Nat) : (consumeTrueT s lim i).val = consumeTrue s lim i := by
  simp [consumeTrueT]
@[simp] theorem consumeNullT_val (s : Bytes) (lim i : Nat) : (consumeNullT s lim i).val = consumeNull s lim i := by
  simp [consumeNullT]
@[simp] theorem consumeHexT_val (s : Bytes) (i cp : Nat) : (consumeHexT s i cp).val = consumeHex s i cp := by
  simp [consumeHexT]

@[simp] theorem consumeStrLoopT_val (s : Bytes) : ∀ fuel c i, (consumeStrLoopT s fuel c i).val = consumeStrLoop s fuel c i
  | 0, _, _ => rfl
  | fuel + 1, c, i => by simp [consumeStrLoopT, consumeStrLoop, consumeStrLoopT_val s fuel]

@[simp] theorem consumeStrT_val (s : Bytes) (i : Nat) : (consumeStrT s i).val = consumeStr s i := by
  simp [consumeStrT, consumeStr]

@[simp] theorem checkStrLoopT_val (s : Bytes) : ∀ fuel c i, (checkStrLoopT s fuel c i).val = checkStrLoop s fuel c i
  | 0, _, _ => rfl
  | fuel + 1, c, i => by simp [checkStrLoopT, checkStrLoop, checkStrLoopT_val s fuel]

@[simp] theorem checkStrT_val (s : Bytes) : (checkStrT s).val = checkStr s := by simp [checkStrT, checkStr]

@[simp] theorem digitLoopT_val (s : Bytes) : ∀ fuel i, (digitLoopT s fuel i).val = digitLoop s fuel i
  | 0, _ => rfl
  | fuel + 1, i => by simp [digitLoopT, digitLoop, digitLoopT_val s fuel]

@[simp] theorem numIntT_val (s : Bytes) (i : Nat) : (numIntT s i).val = numInt s i := by simp [numIntT, numInt]
@[simp] theorem numFracT_val (s : Bytes) (i : Nat) : (numFracT s i).val = numFrac s i := by simp [numFracT, numFrac]
@[simp] theorem numExpT_val (s : Bytes) (i : Nat) : (numExpT s i).val = numExp s i := by simp [numExpT, numExp]
@[simp] theorem scanNumT_val (s : Bytes) (i : Nat) : (scanNumT s i).val = scanNum s i := by
  simp only [scanNumT, scanNum, TR.val_bind, rdT_val, numIntT_val]
  congr 1; funext c; congr 1; funext o
  cases o with
  | none => simp
  | some i =>
    simp only [TR.val_bind, numFracT_val]
    congr 1; funext o
    cases o <;> simp
@[simp] theorem consumeNumT_val (s : Bytes) (i : Nat) : (consumeNumT s i).val = consumeNum s i := by
  simp [consumeNumT, consumeNum]
@[simp] theorem checkNumT_val (s : Bytes) : (checkNumT s).val = checkNum s := by
  simp only [checkNumT, checkNum, TR.val_bind, scanNumT_val]
  congr 1; funext o
  cases o <;> simp
@[simp] theorem strLenLoopT_val : ∀ s n, (strLenLoopT s n).val = strLenLoop s n
  | [], _ => rfl
  | c :: r, n => by simp [strLenLoopT, strLenLoop, strLenLoopT_val r]
@[simp] theorem strLenT_val (s : Bytes) : (strLenT s).val = strLen s := by simp [strLenT, strLen]

namespace TM
variable {α β : Type}

@[simp] theorem val_pure (a : α) : (pure a : TM α).val = pure a := rfl
@[simp] theorem val_steps (n : Nat) (x : M α) : (steps n x).val = x := by
  funext st
  simp only [steps, TM.val]
  cases x st <;> rfl
@[simp] theorem val_one (x : M α) : (one x).val = x := by simp [one]
@[simp] theorem val_bind (x : TM α) (f : α → TM β) : (x >>= f).val = x.val >>= fun a => (f a).val := by
  funext st
  show TM.val (fun st => match x st with | .ok ((a, m), st1) => _ | .ub u => _ | .timeout => _) st = _
  rw [M.bind_run]
  simp only [TM.val]
  cases hx : x st with
  | ok q =>
    obtain ⟨⟨a, m⟩, st1⟩ := q
    simp only
    cases hf : f a st1 <;> simp
  | ub u => rfl
  | timeout => rfl
@[simp] theorem val_ite (c : Prop) [Decidable c] (x y : TM α) : (if c then x else y).val = if c then x.val else y.val := by
  split <;> rfl
@[simp] theorem val_liftT (x : TR α) : (liftT x).val = lift x.val := by
  funext st
  simp only [liftT, TM.val, lift, TR.val]
  cases x <;> rfl

end TM

@[simp] theorem openContainerT_val (A : Nat) (s : Bytes) (ty : JType) (close : Byte) (node : Addr) (i : Nat) :
    (openContainerT A s ty close node i).val = openContainer A s ty close node i := by
  simp [openContainerT, openContainer]

@[simp] theorem switchValueT_val (A : Nat) (p : SPtr) (s : Bytes) (lim : Nat) (node : Addr) (i : Nat) :
    (switchValueT A p s lim node i).val = switchValue A p s lim node i := by
  simp only [switchValueT, switchValue, TM.val_bind, TM.val_liftT, peekT_val]
  congr 1; funext q
  simp only [TM.val_ite, openContainerT_val, TM.val_bind, TM.val_liftT, consumeNullT_val, consumeFalseT_val,
    consumeTrueT_val, consumeT_val, TM.val_one, TM.val_pure, consumeStrT_val, consumeNumT_val]
  repeat' (split; · rfl)
  congr 1; funext o
  cases o <;> simp

@[simp] theorem parseKeyT_val (p : SPtr) (s : Bytes) (node : Addr) (i : Nat) :
    (parseKeyT p s node i).val = parseKey p s node i := by
  simp [parseKeyT, parseKey]

@[simp] theorem restoreT_val (v : Addr) (src : Option Addr) : (restoreT v src).val = restore v src := by simp [restoreT]

@[simp] theorem parseLoopT_val (v : Addr) (A : Nat) (p : SPtr) (s : Bytes) (lim : Nat) (src : Option Addr) :
    ∀ fuel pc node i, (parseLoopT v A p s lim src fuel pc node i).val = parseLoop v A p s lim src fuel pc node i
  | 0, pc, _, _ => by cases pc <;> simp [parseLoopT, parseLoop]
  | fuel + 1, .head, node, i => by
    simp only [parseLoopT, parseLoop, TM.val_bind, TM.val_one]
    congr 1; funext x
    simp only [TM.val_ite, TM.val_bind, TM.val_liftT, peekAndConsumeT_val, TM.val_pure, restoreT_val, parseKeyT_val]
    congr 2; funext o
    cases o with
    | none => simp
    | some i =>
      simp only [TM.val_bind, switchValueT_val]
      congr 1; funext o
      cases o <;> simp [parseLoopT_val v A p s lim src fuel]
  | fuel + 1, .close, node, i => by
    simp [parseLoopT, parseLoop, parseLoopT_val v A p s lim src fuel]

@[simp] theorem parseFastT_val (v : Addr) (p : SPtr) : (parseFastT v p).val = parseFast v p := by
  simp only [parseFastT, parseFast, TM.val_bind, TM.val_one, TM.val_steps]
  congr 1; funext val
  have h : (parseStartT v val).val = (do
    match val.n with
    | none =>
      let n ← newNode val.a
      setValN v (some n)
      setPrev n none
      setNext n none
      setFather n none
      setKey n none
      pure none
    | some a =>
      let sn ← newNode val.a
      let x ← rdNode a
      modNode sn fun n => { x with owner := n.owner }
      pure (some sn) : M (Option Addr)) := by
    unfold parseStartT
    cases val.n <;> simp
  rw [h]
  congr 1; funext src; congr 1; funext q; congr 1; funext y; congr 1; funext root
  simp only [TM.val_bind, switchValueT_val]
  congr 1; funext o
  cases o <;> simp

@[simp] theorem readNT_val (p : SPtr) (len : Nat) : (readNT p len).val = readN p len := by simp [readNT]

@[simp] theorem parseLenT_val (v : Addr) (p : SPtr) (len : Nat) : (parseLenT v p len).val = parseLen v p len := by
  simp [parseLenT, parseLen]

@[simp] theorem parseT_val (v : Addr) (p : SPtr) : (parseT v p).val = parse v p := by
  simp [parseT, parse]

end ZJ
