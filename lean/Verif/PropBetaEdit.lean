import Verif.BetaEdit
import Verif.PropBetaGet
import Verif.PropDefect
import Verif.PropBorrow

/-
C75 and C76: searching, copying, moving, adding and deleting in the older header; assigning there.
-/

set_option linter.unusedSimpArgs false
set_option linter.unusedVariables false

namespace ZJ.Beta

variable {D : Type} {α β : Type}

/-! ### The same memory

`Twin st s`: the memory of a program that uses the older header is the one of a program that uses
`zzzjson.h`, apart from the sizes asked of the allocator (handles are larger) and from what the handles
remember. -/
def Twin (st : St) (s : BSt D) : Prop := ∃ l, s.st = { st with log := l }

/-- The two headers do the same: both go on, with the same result and the same memory, or both have the
same undefined behaviour, or both are in an endless loop. -/
inductive Match : Res (α × St) → Res (α × BSt D) → Prop where
  | ok {a st s} : Twin st s → Match (.ok (a, st)) (.ok (a, s))
  | ub {u} : Match (.ub u) (.ub u)
  | timeout : Match .timeout .timeout

/-- The function `m` of `zzzjson.h` and `b` of the older header do the same in every state. -/
def Alike (m : M α) (b : BM D α) : Prop := ∀ st s, Twin st s → Match (m st) (b s)

theorem Alike.pure (a : α) : Alike (pure a) (pure a : BM D α) := fun _ _ h => .ok h

theorem Alike.bind {m : M α} {b : BM D α} {f : α → M β} {g : α → BM D β} (h : Alike m b) (hf : ∀ a, Alike (f a) (g a)) :
    Alike (m >>= f) (b >>= g) := fun st s ht => by
  rw [M.bind_run, bind_run]
  have := h st s ht
  generalize m st = x at this
  generalize b s = y at this
  cases this with
  | ok h => exact hf _ _ _ h
  | ub => exact .ub
  | timeout => exact .timeout

/-- What the log says makes no difference. -/
structure Blind (m : M α) : Prop where
  run : ∀ st l, (∃ a st' l', m st = .ok (a, st') ∧ m { st with log := l } = .ok (a, { st' with log := l' })) ∨
    (∃ u, m st = .ub u ∧ m { st with log := l } = .ub u) ∨ (m st = .timeout ∧ m { st with log := l } = .timeout)

theorem Blind.alike {m : M α} (h : Blind m) : Alike m (up m : BM D α) := by
  rintro st ⟨_, mem⟩ ⟨l, rfl⟩
  unfold up
  rcases h.run st l with ⟨a, st', l', e1, e2⟩ | ⟨u, e1, e2⟩ | ⟨e1, e2⟩
  · rw [e1]; dsimp only; rw [e2]; exact .ok ⟨l', rfl⟩
  · rw [e1]; dsimp only; rw [e2]; exact .ub
  · rw [e1]; dsimp only; rw [e2]; exact .timeout

theorem Blind.pure (a : α) : Blind (pure a) := .mk fun st l => .inl ⟨a, st, l, rfl, rfl⟩

theorem Blind.bind {m : M α} {f : α → M β} (h : Blind m) (hf : ∀ a, Blind (f a)) : Blind (m >>= f) := .mk fun st l => by
  simp only [M.bind_run]
  rcases h.run st l with ⟨a, st', l', e1, e2⟩ | ⟨u, e1, e2⟩ | ⟨e1, e2⟩
  · rw [e1, e2]; exact (hf a).run st' l'
  · rw [e1, e2]; exact .inr (.inl ⟨u, rfl, rfl⟩)
  · rw [e1, e2]; exact .inr (.inr ⟨rfl, rfl⟩)

theorem Blind.fail (u : UB) : Blind (fail u : M α) := .mk fun st l => .inr (.inl ⟨u, rfl, rfl⟩)
theorem Blind.lift (r : Res α) : Blind (lift r) := .mk fun st l => by
  cases r
  · exact .inl ⟨_, _, l, rfl, rfl⟩
  · exact .inr (.inl ⟨_, rfl, rfl⟩)
  · exact .inr (.inr ⟨rfl, rfl⟩)
theorem Blind.fld (o : Option α) : Blind (fld o) := by cases o; exact .fail _; exact .pure _
theorem Blind.deref (o : Option Addr) : Blind (deref o) := by cases o; exact .fail _; exact .pure _
theorem Blind.rdNode (a : Addr) : Blind (rdNode a) := .mk fun st l => by
  cases h : st.nodes a with
  | none => exact .inr (.inl ⟨.wild, by simp [ZJ.rdNode, h], by simp [ZJ.rdNode, h]⟩)
  | some n => exact .inl ⟨n, st, l, by simp [ZJ.rdNode, h], by simp [ZJ.rdNode, h]⟩
theorem Blind.modNode (a : Addr) (f : Node → Node) : Blind (modNode a f) := .mk fun st l => by
  cases h : st.nodes a with
  | none => exact .inr (.inl ⟨.wild, by simp [ZJ.modNode, h], by simp [ZJ.modNode, h]⟩)
  | some n => exact .inl ⟨(), _, l, by simp only [ZJ.modNode, h]; rfl, by simp only [ZJ.modNode, h]⟩
theorem Blind.rdVal (v : Addr) : Blind (rdVal v) := .mk fun st l => by
  cases h : st.vals v with
  | none => exact .inr (.inl ⟨.wild, by simp [ZJ.rdVal, h], by simp [ZJ.rdVal, h]⟩)
  | some n => exact .inl ⟨n, st, l, by simp [ZJ.rdVal, h], by simp [ZJ.rdVal, h]⟩
theorem Blind.setValN (v : Addr) (p : Option Addr) : Blind (setValN v p) := .mk fun st l => by
  cases h : st.vals v with
  | none => exact .inr (.inl ⟨.wild, by simp [ZJ.setValN, h], by simp [ZJ.setValN, h]⟩)
  | some n => exact .inl ⟨(), _, l, by simp only [ZJ.setValN, h]; rfl, by simp only [ZJ.setValN, h]⟩
theorem Blind.request (A n : Nat) : Blind (request A n) := .mk fun st l => by
  by_cases h : st.allocs A
  · exact .inl ⟨(), _, _, if_pos h, if_pos h⟩
  · exact .inr (.inl ⟨.wild, if_neg h, if_neg h⟩)
theorem Blind.newNode (A : Nat) : Blind (newNode A) := .bind (.request _ _) fun _ => .mk fun st l => .inl ⟨_, _, l, rfl, rfl⟩
theorem Blind.newVal (A : Nat) (n : Option Addr) : Blind (newVal A n) := .bind (.request _ _) fun _ => .mk fun st l => .inl ⟨_, _, l, rfl, rfl⟩
theorem Blind.newBuf (A n : Nat) (d : Bytes) : Blind (newBuf A n d) := .bind (.request _ _) fun _ => .mk fun st l => by
  by_cases h : d.length ≤ n
  · exact .inl ⟨_, _, l, if_pos h, if_pos h⟩
  · exact .inr (.inl ⟨.oob, if_neg h, if_neg h⟩)
theorem Blind.newString (A n : Nat) : Blind (newString A n) := .bind (.request _ _) fun _ => .mk fun st l => .inl ⟨_, _, l, rfl, rfl⟩
theorem Blind.getCfg : Blind getCfg := .mk fun st l => .inl ⟨_, _, l, rfl, rfl⟩
theorem Blind.view (p : SPtr) : Blind (view p) := .mk fun st l => by
  cases p with
  | lit s => exact .inl ⟨_, _, l, rfl, rfl⟩
  | buf b off =>
    cases h : st.bufs b with
    | none => exact .inr (.inl ⟨.wild, by simp [ZJ.view, h], by simp [ZJ.view, h]⟩)
    | some n => exact .inl ⟨_, st, l, by simp only [ZJ.view, h]; rfl, by simp only [ZJ.view, h]⟩
theorem Blind.readN (p : SPtr) (n : Nat) : Blind (readN p n) := .mk fun st l => by
  cases p with
  | lit s =>
    by_cases h : n ≤ s.bytes.length + 1
    · exact .inl ⟨_, _, l, if_pos h, if_pos h⟩
    · exact .inr (.inl ⟨.oob, if_neg h, if_neg h⟩)
  | buf b off =>
    cases h : st.bufs b with
    | none => exact .inr (.inl ⟨.wild, by simp [ZJ.readN, h], by simp [ZJ.readN, h]⟩)
    | some bf =>
      by_cases h1 : n = 0
      · exact .inl ⟨[], st, l, by simp [ZJ.readN, h, h1], by simp [ZJ.readN, h, h1]⟩
      by_cases h2 : bf.size < off + n
      · exact .inr (.inl ⟨.oob, by simp [ZJ.readN, h, h1, h2], by simp [ZJ.readN, h, h1, h2]⟩)
      by_cases h3 : bf.data.length < off + n
      · exact .inr (.inl ⟨.uninit, by simp [ZJ.readN, h, h1, h2, h3], by simp [ZJ.readN, h, h1, h2, h3]⟩)
      · exact .inl ⟨_, st, l, by simp only [ZJ.readN, h, h1, h2, h3, if_false]; rfl, by simp only [ZJ.readN, h, h1, h2, h3, if_false]⟩
theorem Blind.touchStr (z : ZStr) : Blind (touchStr z) := .mk fun st l => by
  cases h : st.bufs z.hdr with
  | none => exact .inr (.inl ⟨.wild, by simp [ZJ.touchStr, h], by simp [ZJ.touchStr, h]⟩)
  | some n => exact .inl ⟨(), st, l, by simp only [ZJ.touchStr, h], by simp only [ZJ.touchStr, h]⟩
theorem Blind.pokeStr (z : ZStr) (s : Bytes) : Blind (pokeStr z s) := .mk fun st l => by
  cases h : st.bufs z.data with
  | none => exact .inr (.inl ⟨.wild, by simp [ZJ.pokeStr, h], by simp [ZJ.pokeStr, h]⟩)
  | some b =>
    by_cases h1 : z.pos + s.length ≤ b.size ∧ z.pos ≤ b.data.length
    · exact .inl ⟨_, _, l, by simp only [ZJ.pokeStr, h, h1, and_self, if_true]; rfl, by simp only [ZJ.pokeStr, h, h1, and_self, if_true]⟩
    · exact .inr (.inl ⟨.oob, by simp only [ZJ.pokeStr, h, h1, if_false], by simp only [ZJ.pokeStr, h, h1, if_false]⟩)
theorem Blind.old (z : ZStr) : Blind (fun st => match st.bufs z.data with
    | some b => .ok (b.data.take z.pos, st)
    | none => .ub .wild : M Bytes) := .mk fun st l => by
  dsimp only
  cases h : st.bufs z.data with
  | none => exact .inr (.inl ⟨.wild, rfl, rfl⟩)
  | some b => exact .inl ⟨_, st, l, rfl, rfl⟩

theorem Blind.nNode (a : Addr) : Blind (nNode a) := by
  unfold ZJ.nNode
  refine .bind (.rdNode _) fun n => .bind (.fld _) fun u => ?_
  cases u <;> first | exact .fail _ | exact .pure _
theorem Blind.nStr (a : Addr) : Blind (nStr a) := by
  unfold ZJ.nStr
  refine .bind (.rdNode _) fun n => .bind (.fld _) fun u => ?_
  cases u <;> first | exact .fail _ | exact .pure _

macro "blind" : tactic => `(tactic| repeat' (first
  | assumption | exact Blind.pure _ | exact Blind.fail _ | exact Blind.lift _ | exact Blind.fld _ | exact Blind.deref _
  | exact Blind.rdNode _ | exact Blind.rdVal _ | exact Blind.modNode _ _ | exact Blind.setValN _ _
  | exact Blind.newVal _ _ | exact Blind.newNode _ | exact Blind.newBuf _ _ _ | exact Blind.newString _ _ | exact Blind.nNode _ | exact Blind.nStr _
  | exact Blind.view _ | exact Blind.readN _ _ | exact Blind.getCfg | exact Blind.touchStr _ | exact Blind.pokeStr _ _ | exact Blind.old _
  | apply Blind.bind | intro _ | split))

theorem Blind.objGetLoop (p : SPtr) : ∀ fuel o, Blind (objGetLoop p fuel o)
  | 0, _ => .lift _
  | _ + 1, none => .pure _
  | fuel + 1, some n => by
    have := Blind.objGetLoop p fuel
    unfold ZJ.objGetLoop objGetLoop.deref' nKey nKeyLen nNext
    repeat' (first | exact this _ | blind)
theorem Blind.objGetLenLoop (p : SPtr) (len : Nat) : ∀ fuel o, Blind (objGetLenLoop p len fuel o)
  | 0, _ => .lift _
  | _ + 1, none => .pure _
  | fuel + 1, some n => by
    have := Blind.objGetLenLoop p len fuel
    unfold ZJ.objGetLenLoop objGetLoop.deref' nKey nKeyLen nNext
    repeat' (first | exact this _ | blind)
theorem Blind.arrayGetLoop (i : Nat) : ∀ fuel j o, Blind (arrayGetLoop i fuel j o)
  | 0, _, _ => .lift _
  | _ + 1, _, none => .pure _
  | fuel + 1, j, some n => by
    have := Blind.arrayGetLoop i fuel
    unfold ZJ.arrayGetLoop nNext
    repeat' (first | exact this _ _ | blind)
theorem Blind.move (v : Addr) : Blind (ZJ.move v) := by
  unfold ZJ.move unlinkPrev unlinkNext nFather nPrev nNext nLen setNodeP setNext setPrev setEnd setLen setFather
  blind
theorem Blind.adopt (f : Addr) : ∀ fuel o, Blind (adopt f fuel o)
  | 0, _ => .lift _
  | _ + 1, none => .pure _
  | fuel + 1, some n => by
    unfold ZJ.adopt setFather nNext
    have := Blind.adopt f fuel
    repeat' (first | exact this _ | blind)
theorem Blind.graft (fuel : Nat) (a x e : Addr) : Blind (ZJ.graft fuel a x e) := by
  unfold ZJ.graft nType nLen setType setLen
  repeat' (first | exact Blind.adopt _ _ _ | blind)
theorem Blind.attach (f x : Addr) : Blind (attach f x) := by
  unfold ZJ.attach setNodeP setLen setEnd setNext setPrev nEnd nLen
  blind
theorem Blind.copyNode (A a d : Nat) : Blind (copyNode A a d) := by
  unfold ZJ.copyNode copyKey copyBody nType nKey nKeyLen nLen ZJ.setKey ZJ.setKeyLen setType setLen setFather setPrev setNodeP setEnd setStrP
  blind
theorem Blind.copyLoop (A vv : Nat) : ∀ fuel pc a d, Blind (copyLoop A vv fuel pc a d)
  | 0, _, _, _ => by unfold ZJ.copyLoop; exact .lift _
  | fuel + 1, pc, a, d => by
    have := Blind.copyLoop A vv fuel
    cases pc with
    | body =>
      unfold ZJ.copyLoop
      refine .bind (.copyNode _ _ _) fun r => ?_
      rcases r with _ | ⟨c, n⟩ <;> exact this _ _ _
    | inner =>
      unfold ZJ.copyLoop
      refine .bind (.rdVal _) fun x => ?_
      split
      · exact this _ _ _
      refine .bind (.bind (.rdNode _) fun _ => .fld _) fun x => ?_
      rcases x with _ | x
      · exact .bind (.bind (.rdNode _) fun _ => .fld _) fun _ => .bind (.deref _) fun _ => .bind (.modNode _ _) fun _ =>
          .bind (.bind (.rdNode _) fun _ => .fld _) fun _ => .bind (.deref _) fun _ => this _ _ _
      · exact .bind (.newNode _) fun _ => .bind (.bind (.rdNode _) fun _ => .fld _) fun _ => .bind (.modNode _ _) fun _ => .bind (.modNode _ _) fun _ =>
          .bind (.deref _) fun _ => .bind (.modNode _ _) fun _ => .bind (.modNode _ _) fun _ => this _ _ _
    | test =>
      unfold ZJ.copyLoop
      refine .bind (.rdVal _) fun x => ?_
      split
      · exact .pure _
      · exact this _ _ _

theorem Blind.appendBytes (z : ZStr) (s : Bytes) : Blind (appendBytes z s) := by
  unfold ZJ.appendBytes
  blind
theorem Blind.appendStr (z : ZStr) (p : SPtr) (n : Nat) : Blind (appendStr z p n) := .bind (.readN _ _) fun _ => .appendBytes _ _
theorem Blind.appendChar (z : ZStr) (c : Byte) : Blind (appendChar z c) := by
  unfold ZJ.appendChar
  blind
theorem Blind.putKey (z : ZStr) (a : Addr) : Blind (putKey z a) := by
  unfold ZJ.putKey nKey nKeyLen
  repeat' (first | exact Blind.appendStr _ _ _ | exact Blind.appendChar _ _ | blind)
theorem Blind.putValue (z : ZStr) (a : Addr) : Blind (putValue z a) := by
  unfold ZJ.putValue nType nLen
  repeat' (first | exact Blind.appendStr _ _ _ | exact Blind.appendChar _ _ | exact Blind.appendBytes _ _ | blind)
theorem Blind.stringifyLoop (v : Addr) : ∀ fuel pc a z, Blind (stringifyLoop v fuel pc a z)
  | 0, _, _, _ => by unfold ZJ.stringifyLoop; exact .lift _
  | fuel + 1, pc, a, z => by
    have := Blind.stringifyLoop v fuel
    cases pc <;>
    · unfold ZJ.stringifyLoop
      try unfold nNext
      try unfold nFather nType
      repeat' (first | exact this _ _ _ | exact Blind.putKey _ _ | exact Blind.putValue _ _ | exact Blind.appendChar _ _ | blind)
theorem Blind.stringify (fuel : Nat) (v : Addr) : Blind (ZJ.stringify fuel v) := by
  unfold ZJ.stringify newOut
  repeat' (first | exact Blind.stringifyLoop _ _ _ _ _ | exact Blind.putValue _ _ | exact Blind.appendChar _ _ | blind)

theorem Blind.ensureNode (v : Addr) : Blind (ensureNode v) := by
  unfold ZJ.ensureNode ZJ.setKey setPrev setFather setNext
  blind
theorem Blind.setScalar (v : Addr) (t : JType) (p : SPtr) (n : Nat) : Blind (setScalar v t p n) :=
  .bind (.ensureNode _) fun _ => .bind (.modNode _ _) fun _ => .bind (.modNode _ _) fun _ => .modNode _ _
theorem Blind.setBool (v : Addr) (b : Bool) : Blind (ZJ.setBool v b) := by
  unfold ZJ.setBool
  split <;> exact .setScalar _ _ _ _
theorem Blind.setArray (v : Addr) : Blind (ZJ.setArray v) :=
  .bind (.ensureNode _) fun _ => .bind (.modNode _ _) fun _ => .bind (.modNode _ _) fun _ => .modNode _ _
theorem Blind.setObj (v : Addr) : Blind (ZJ.setObj v) :=
  .bind (.ensureNode _) fun _ => .bind (.modNode _ _) fun _ => .bind (.modNode _ _) fun _ => .modNode _ _
theorem Blind.setNumStrFast (v : Addr) (p : SPtr) : Blind (ZJ.setNumStrFast v p) := by
  unfold ZJ.setNumStrFast checkNumAt
  repeat' (first | exact Blind.setScalar _ _ _ _ | blind)
theorem Blind.setNumStr (v : Addr) (p : SPtr) : Blind (ZJ.setNumStr v p) := by
  unfold ZJ.setNumStr checkNumAt dup
  repeat' (first | exact Blind.setScalar _ _ _ _ | blind)
theorem Blind.setStrFast (v : Addr) (p : SPtr) : Blind (ZJ.setStrFast v p) := by
  unfold ZJ.setStrFast checkStrAt
  repeat' (first | exact Blind.setScalar _ _ _ _ | blind)
theorem Blind.setStr (v : Addr) (p : SPtr) : Blind (ZJ.setStr v p) := by
  unfold ZJ.setStr checkStrAt dup
  repeat' (first | exact Blind.setScalar _ _ _ _ | blind)
theorem Blind.setKeyC (v : Addr) (p : SPtr) : Blind (ZJ.setKeyC v p) := by
  unfold ZJ.setKeyC checkStrAt dup keyTarget setPrev setFather setNext setType setStrP setLen nFather nType ZJ.setKey ZJ.setKeyLen
  blind
theorem Blind.setKeyFast (v : Addr) (p : SPtr) : Blind (ZJ.setKeyFast v p) := by
  unfold ZJ.setKeyFast checkStrAt keyTarget setPrev setFather setNext setType setStrP setLen nFather nType ZJ.setKey ZJ.setKeyLen
  blind
theorem Blind.fillCache (A : Nat) (p : SPtr) (n : Nat) : Blind (fillCache A p n) := by
  refine .bind (.mk fun st l => .inl ⟨st.cache, st, l, rfl, rfl⟩) fun c => .bind ?_ fun z => .bind (.appendStr _ _ _) fun z =>
    .bind (.appendChar _ _) fun z => .bind (.mk fun st l => .inl ⟨(), { st with cache := some z }, l, rfl, rfl⟩) fun _ => .pure _
  cases c with
  | none => exact .bind .getCfg fun _ => .newString _ _
  | some z => exact .bind (.touchStr _) fun _ => .pure _
theorem Blind.checkStrAt (p : SPtr) : Blind (checkStrAt p) := .bind (.view _) fun _ => .lift _
theorem Blind.checkNumAt (p : SPtr) : Blind (checkNumAt p) := .bind (.view _) fun _ => .lift _
theorem Blind.checkStrLenAt (A : Nat) (p : SPtr) (n : Nat) : Blind (checkStrLenAt A p n) :=
  .bind (.fillCache _ _ _) fun _ => .bind (.checkStrAt _) fun o => by cases o <;> exact .pure _
theorem Blind.checkNumLenAt (A : Nat) (p : SPtr) (n : Nat) : Blind (checkNumLenAt A p n) :=
  .bind (.fillCache _ _ _) fun _ => .bind (.checkNumAt _) fun o => by cases o <;> exact .pure _
theorem Blind.dup (A : Nat) (p : SPtr) (n : Nat) : Blind (dup A p n) := .bind (.readN _ _) fun _ => .bind (.newBuf _ _ _) fun _ => .pure _
theorem Blind.setNumStrLenFast (v : Addr) (p : SPtr) (n : Nat) : Blind (ZJ.setNumStrLenFast v p n) := by
  refine .bind (.rdVal _) fun x => .bind (.checkNumLenAt _ _ _) fun r => ?_
  cases r
  · exact .pure _
  · exact .bind (.setScalar _ _ _ _) fun _ => .pure _
theorem Blind.setNumStrLen (v : Addr) (p : SPtr) (n : Nat) : Blind (ZJ.setNumStrLen v p n) := by
  refine .bind (.rdVal _) fun x => .bind (.checkNumLenAt _ _ _) fun r => ?_
  cases r
  · exact .pure _
  · exact .bind (.rdVal _) fun _ => .bind (.dup _ _ _) fun _ => .bind (.setScalar _ _ _ _) fun _ => .pure _
theorem Blind.setStrLenFast (v : Addr) (p : SPtr) (n : Nat) : Blind (ZJ.setStrLenFast v p n) := by
  refine .bind (.rdVal _) fun x => .bind (.checkStrLenAt _ _ _) fun r => ?_
  cases r
  · exact .pure _
  · exact .bind (.setScalar _ _ _ _) fun _ => .pure _
theorem Blind.setStrLen (v : Addr) (p : SPtr) (n : Nat) : Blind (ZJ.setStrLen v p n) := by
  refine .bind (.rdVal _) fun x => .bind (.checkStrLenAt _ _ _) fun r => ?_
  cases r
  · exact .pure _
  · exact .bind (.rdVal _) fun _ => .bind (.dup _ _ _) fun _ => .bind (.setScalar _ _ _ _) fun _ => .pure _
theorem Blind.keyTarget (v : Addr) : Blind (keyTarget v) := by
  unfold ZJ.keyTarget setPrev setFather setNext setType setStrP setLen nFather nType
  blind
theorem Blind.setKeyLenFast (v : Addr) (p : SPtr) (n : Nat) : Blind (ZJ.setKeyLenFast v p n) := by
  refine .bind (.rdVal _) fun x => .bind (.checkStrLenAt _ _ _) fun r => ?_
  cases r
  · exact .pure _
  · refine .bind (.keyTarget _) fun o => ?_
    cases o
    · exact .pure _
    · exact .bind (.modNode _ _) fun _ => .bind (.modNode _ _) fun _ => .pure _
theorem Blind.setKeyLenC (v : Addr) (p : SPtr) (n : Nat) : Blind (ZJ.setKeyLenC v p n) := by
  refine .bind (.rdVal _) fun x => .bind (.checkStrLenAt _ _ _) fun r => ?_
  cases r
  · exact .pure _
  · refine .bind (.keyTarget _) fun o => ?_
    cases o
    · exact .pure _
    · exact .bind (.rdVal _) fun _ => .bind (.dup _ _ _) fun _ => .bind (.modNode _ _) fun _ => .bind (.modNode _ _) fun _ => .pure _
theorem Blind.getBool (v : Addr) : Blind (ZJ.getBool v) := by
  unfold ZJ.getBool nType
  blind
theorem Blind.isNull (v : Addr) : Blind (ZJ.isNull v) := by unfold ZJ.isNull nType; blind
theorem Blind.newAllocator : Blind ZJ.newAllocator := .mk fun st l => .inl ⟨_, _, _, rfl, rfl⟩
theorem Blind.releaseAllocator (A : Nat) : Blind (ZJ.releaseAllocator A) := .mk fun st l => by
  by_cases h : st.allocs A
  · exact .inl ⟨(), _, _, if_pos h, if_pos h⟩
  · exact .inr (.inl ⟨.badFree, if_neg h, if_neg h⟩)
theorem Blind.getType (v : Addr) : Blind (ZJ.getType v) := by unfold ZJ.getType nType; blind
theorem Blind.sizeOf (v : Addr) : Blind (ZJ.sizeOf v) := by unfold ZJ.sizeOf nType nLen; blind

/-! ### Both headers -/

theorem Twin.mem {st : St} {s : BSt D} (h : Twin st s) (m : Addr → Cache D) : Twin st ⟨s.st, m⟩ := h

theorem Alike.initCache {m : M α} {b : BM D α} (v : Addr) (h : Alike m b) : Alike m (do initCache v; b) :=
  fun st s ht => h st ⟨s.st, _⟩ ht

theorem up_ub {m : M α} {s : BSt D} {u : UB} (h : m s.st = .ub u) : (up m : BM D α) s = .ub u := by
  simp only [up, h]
theorem bind_ub {x : BM D α} {f : α → BM D β} {s : BSt D} {u : UB} (h : x s = .ub u) : (x >>= f) s = .ub u := by
  rw [bind_run, h]

theorem Alike.innerNew (A : Nat) (n : Option Addr) : Alike (newVal A n) (innerNew A n : BM D Addr) := by
  rintro st ⟨_, mem⟩ ⟨l, rfl⟩
  have run : ∀ (k : Nat) (s₀ : St) (f : M Addr), (request A k >>= fun _ => f) s₀ =
      if s₀.allocs A then f {s₀ with log := .alloc A k :: s₀.log} else .ub .wild := by
    intro k s₀ f
    by_cases h : s₀.allocs A
    · rw [if_pos h]
      exact M.bind_ok (if_pos h)
    · rw [if_neg h]
      exact M.bind_ub (if_neg h)
  have h1 : newVal A n st = _ := run 16 st _
  have h2 := run 48 {st with log := l} (fun st => .ok (st.nv, { st with vals := upd st.vals st.nv (some ⟨n, A⟩), nv := st.nv + 1 }))
  by_cases h : st.allocs A
  · rw [if_pos h] at h1
    rw [if_pos (by exact h)] at h2
    rw [h1]
    have h3 : (ZJ.Beta.innerNew A n : BM D Addr) ⟨{st with log := l}, mem⟩ = _ := bind_ok (up_ok h2)
    rw [h3]
    exact .ok ⟨_, rfl⟩
  · rw [if_neg h] at h1
    rw [if_neg (by exact h)] at h2
    rw [h1]
    have h3 : (ZJ.Beta.innerNew A n : BM D Addr) ⟨{st with log := l}, mem⟩ = .ub .wild := bind_ub (up_ub h2)
    rw [h3]
    exact .ub

theorem Alike.rdVal (v : Addr) : Alike (rdVal v) (up (rdVal v) : BM D Val) := (Blind.rdVal v).alike
theorem Alike.nType (a : Addr) : Alike (nType a) (up (nType a) : BM D JType) := (Blind.bind (.rdNode _) fun _ => .fld _).alike
theorem Alike.nKey (a : Addr) : Alike (nKey a) (up (nKey a) : BM D _) := (Blind.bind (.rdNode _) fun _ => .fld _).alike
theorem Alike.nNext (a : Addr) : Alike (nNext a) (up (nNext a) : BM D _) := (Blind.bind (.rdNode _) fun _ => .fld _).alike
theorem Alike.nNode (a : Addr) : Alike (nNode a) (up (nNode a) : BM D _) := (Blind.nNode a).alike
theorem Alike.move (v : Addr) : Alike (ZJ.move v) (move v : BM D Bool) := (Blind.move v).alike

theorem M.assoc {γ : Type} (m : M α) (f : α → M β) (g : β → M γ) : m >>= f >>= g = m >>= fun a => f a >>= g := by
  funext st
  simp only [M.bind_run]
  cases m st <;> rfl

theorem Alike.handle (A : Nat) (o : Option Addr) :
    Alike (match o with
      | none => Pure.pure none
      | some n => do return some (← newVal A (some n)))
    (match o with
      | none => Pure.pure none
      | some n => do return some (← ZJ.Beta.innerNew A (some n)) : BM D (Option Addr)) := by
  cases o
  · exact .pure _
  · exact .bind (.innerNew _ _) fun _ => .pure _

/-- C75: searching for a member. -/
theorem C75_objGet (fuel : Nat) (v : Addr) (p : SPtr) : Alike (ZJ.objGet fuel v p) (objGet fuel v p : BM D _) := by
  unfold ZJ.objGet ZJ.Beta.objGet
  refine .bind (.rdVal _) fun x => ?_
  rcases x with ⟨_ | a, A⟩
  · exact .pure _
  refine .bind (.nType _) fun t => ?_
  dsimp only
  split
  · exact .pure _
  rw [← M.assoc]
  exact .bind (Blind.bind (.nNode _) fun _ => .objGetLoop _ _ _).alike fun o => .handle _ _

/-- C75: searching for a member by text and length. -/
theorem C75_objGetLen (fuel : Nat) (v : Addr) (p : SPtr) (n : Nat) :
    Alike (ZJ.objGetLen fuel v p n) (objGetLen fuel v p n : BM D _) := by
  unfold ZJ.objGetLen ZJ.Beta.objGetLen
  refine .bind (.rdVal _) fun x => ?_
  rcases x with ⟨_ | a, A⟩
  · exact .pure _
  refine .bind (.nType _) fun t => ?_
  dsimp only
  split
  · exact .pure _
  rw [← M.assoc]
  exact .bind (Blind.bind (.nNode _) fun _ => .objGetLenLoop _ _ _ _).alike fun o => .handle _ _

/-- C75: an element by its number. -/
theorem C75_arrayGet (fuel : Nat) (v : Addr) (i : Nat) : Alike (ZJ.arrayGet fuel v i) (arrayGet fuel v i : BM D _) := by
  unfold ZJ.arrayGet ZJ.Beta.arrayGet
  refine .bind (.rdVal _) fun x => ?_
  rcases x with ⟨_ | a, A⟩
  · exact .pure _
  refine .bind (.nType _) fun t => ?_
  dsimp only
  split
  · exact .pure _
  rw [← M.assoc]
  exact .bind (Blind.bind (.nNode _) fun _ => .arrayGetLoop _ _ _ _).alike fun o => .handle _ _

/-- C75: the first child. -/
theorem C75_begin (v : Addr) : Alike (ZJ.begin_ v) (begin_ v : BM D _) := by
  unfold ZJ.begin_ ZJ.Beta.begin_
  refine .bind (.rdVal _) fun x => ?_
  rcases x with ⟨_ | a, A⟩
  · exact .pure _
  refine .bind (.nType _) fun t => ?_
  dsimp only
  split
  · exact .pure _
  refine .bind (.nNode _) fun o => ?_
  cases o
  · exact .pure _
  · exact .bind (.innerNew _ _) fun _ => .pure _

/-- C75: the next one. -/
theorem C75_next (v : Addr) : Alike (ZJ.next_ v) (next_ v : BM D _) := by
  unfold ZJ.next_ ZJ.Beta.next_
  refine .bind (.rdVal _) fun x => ?_
  rcases x with ⟨_ | a, A⟩
  · exact .pure _
  refine .bind (.nNext _) fun o => ?_
  cases o
  · exact .pure _
  · exact .bind (.innerNew _ _) fun _ => .pure _

/-- C75: the type and the number of children. -/
theorem C75_type (v : Addr) : Alike (ZJ.getType v) (getType v : BM D _) := (Blind.getType v).alike
theorem C75_size (v : Addr) : Alike (ZJ.sizeOf v) (sizeOf v : BM D _) := (Blind.sizeOf v).alike

/-- C75: taking a value out. -/
theorem C75_move (v : Addr) : Alike (ZJ.move v) (move v : BM D _) := .move v

/-- C75: deleting. -/
theorem C75_arrayDel (fuel : Nat) (v : Addr) (i : Nat) : Alike (ZJ.arrayDel fuel v i) (arrayDel fuel v i : BM D _) := by
  unfold ZJ.arrayDel ZJ.Beta.arrayDel
  refine .bind (C75_arrayGet _ _ _) fun o => ?_
  cases o
  · exact .pure _
  · exact .move _
theorem C75_objDel (fuel : Nat) (v : Addr) (p : SPtr) : Alike (ZJ.objDel fuel v p) (objDel fuel v p : BM D _) := by
  unfold ZJ.objDel ZJ.Beta.objDel
  refine .bind (C75_objGet _ _ _) fun o => ?_
  cases o
  · exact .pure _
  · exact .move _

theorem Alike.congr {m m' : M α} {b : BM D α} (h : Alike m b) (e : m' = m) : Alike m' b := e ▸ h

theorem Blind.setKey (a : Addr) (p : Option SPtr) : Blind (ZJ.setKey a p) := .modNode _ _
theorem Blind.setFather (a : Addr) (p : Option Addr) : Blind (setFather a p) := .modNode _ _
theorem Blind.valN (v : Addr) : Blind (valN v) := .bind (.rdVal _) fun _ => .deref _

/-- C75: adding a value that is moved. -/
theorem C75_arrayAddFast (v vv : Addr) : Alike (ZJ.arrayAddFast v vv) (arrayAddFast v vv : BM D _) := by
  unfold ZJ.arrayAddFast ZJ.Beta.arrayAddFast
  refine .bind (.rdVal _) fun x => ?_
  rcases x with ⟨_ | f, A⟩
  · exact .pure _
  refine .bind (.nType _) fun t => ?_
  split
  · exact .pure _
  refine .bind (.move _) fun r => ?_
  split
  · exact .pure _
  refine .initCache _ (.congr (.bind (Blind.bind (.valN _) fun x => .bind (.setKey _ _) fun _ => .bind (.setFather _ _) fun _ =>
    .bind (.attach _ _) fun _ => .setValN _ _).alike fun _ => .pure _) ?_)
  simp only [M.assoc]
theorem C75_objAddFast (v vv : Addr) : Alike (ZJ.objAddFast v vv) (objAddFast v vv : BM D _) := by
  unfold ZJ.objAddFast ZJ.Beta.objAddFast
  refine .bind (.rdVal _) fun x => ?_
  rcases x with ⟨_ | f, A⟩
  · exact .pure _
  refine .bind (.nType _) fun t => ?_
  split
  · exact .pure _
  refine .bind (.rdVal _) fun y => ?_
  rcases y with ⟨_ | x, B⟩
  · exact .pure _
  refine .bind (.nKey _) fun k => ?_
  split
  · exact .pure _
  refine .bind (.move _) fun r => ?_
  split
  · exact .pure _
  refine .initCache _ (.congr (.bind (Blind.bind (.setFather _ _) fun _ =>
    .bind (.attach _ _) fun _ => .setValN _ _).alike fun _ => .pure _) ?_)
  simp only [M.assoc]

/-! ### Copying -/

/-- The handle exists and is not empty. -/
def Held (st : St) (v : Addr) : Prop := v < st.nv ∧ ∃ x A, st.vals v = some ⟨some x, A⟩

/-- The same in one state. -/
def AlikeAt (st : St) (m : M α) (b : BM D α) : Prop := ∀ s, Twin st s → Match (m st) (b s)

theorem AlikeAt.read {m : M α} {f : α → M β} {g : α → BM D β} {st : St} (hm : Blind m) (hs : Still m)
    (h : ∀ a, m st = .ok (a, st) → AlikeAt st (f a) (g a)) : AlikeAt st (m >>= f) (up m >>= g) := by
  intro s ht
  rw [M.bind_run, bind_run]
  have := hm.alike st s ht
  generalize hx : m st = x at this
  generalize up m s = y at this
  cases this with
  | ok h' => cases hs _ _ _ hx; exact h _ hx _ h'
  | ub => exact .ub
  | timeout => exact .timeout

theorem AlikeAt.bind {m : M α} {b : BM D α} {f : α → M β} {g : α → BM D β} {st : St} (h : AlikeAt st m b)
    (hf : ∀ a, Alike (f a) (g a)) : AlikeAt st (m >>= f) (b >>= g) := by
  intro s ht
  rw [M.bind_run, bind_run]
  have := h s ht
  generalize m st = x at this
  generalize b s = y at this
  cases this with
  | ok h => exact hf _ _ _ h
  | ub => exact .ub
  | timeout => exact .timeout

theorem Alike.at {m : M α} {b : BM D α} (h : Alike m b) (st : St) : AlikeAt st m b := h st

theorem copy_full {st : St} {v x : Addr} {A : Nat} (hv : v < st.nv) (h : st.vals v = some ⟨some x, A⟩) (fuel : Nat) :
    ZJ.copy fuel v st = (do
      let r ← ZJ.newValue A
      (do
        let n ← newNode A
        setValN r (some n)
        setPrev n none
        setNext n none
        setFather n none
        copyLoop A v fuel .body x n)
      return some r) st := by
  have hr : ZJ.rdVal v st = .ok (⟨some x, A⟩, st) := by unfold ZJ.rdVal; rw [h]
  unfold ZJ.copy
  refine (M.bind_ok hr).trans ?_
  simp only [M.bind_run]
  by_cases ha : st.allocs A
  · have e : ZJ.newValue A st = .ok (st.nv, {st with vals := upd st.vals st.nv (some ⟨none, A⟩), nv := st.nv + 1, log := .alloc A 16 :: st.log}) := by
      unfold ZJ.newValue ZJ.newVal
      exact M.bind_ok (show request A 16 st = .ok ((), {st with log := .alloc A 16 :: st.log}) from if_pos ha)
    rw [e]
    dsimp only
    generalize hs : ({st with vals := upd st.vals st.nv (some ⟨none, A⟩), nv := st.nv + 1, log := .alloc A 16 :: st.log} : St) = st1
    have h1 : ZJ.rdVal v st1 = .ok (⟨some x, A⟩, st1) := by
      unfold ZJ.rdVal; rw [← hs]; dsimp only; rw [upd, if_neg (Nat.ne_of_lt hv), h]
    have h2 : ZJ.rdVal st.nv st1 = .ok (⟨none, A⟩, st1) := by
      unfold ZJ.rdVal; rw [← hs]; dsimp only; rw [upd, if_pos rfl]
    unfold valueCopyFrom
    simp only [M.bind_run, h1, h2]
    generalize ZJ.newNode A st1 = z
    rcases z with ⟨n, s2⟩ | _ | _ <;> try rfl
    dsimp only
    generalize ZJ.setValN st.nv (some n) s2 = z
    rcases z with ⟨_, s2⟩ | _ | _ <;> try rfl
    dsimp only
    generalize setPrev n none s2 = z
    rcases z with ⟨_, s2⟩ | _ | _ <;> try rfl
    dsimp only
    generalize setNext n none s2 = z
    rcases z with ⟨_, s2⟩ | _ | _ <;> try rfl
    dsimp only
    generalize ZJ.setFather n none s2 = z
    rcases z with ⟨_, s2⟩ | _ | _ <;> try rfl
    dsimp only
    generalize ZJ.copyLoop A v fuel .body x n s2 = z
    rcases z with ⟨_, s2⟩ | _ | _ <;> rfl
  · have e : ZJ.newValue A st = .ub .wild := by
      unfold ZJ.newValue ZJ.newVal
      exact M.bind_ub (show request A 16 st = .ub .wild from if_neg ha)
    rw [e]

theorem still_rdVal' (v : Addr) : Still (ZJ.rdVal v) := fun _ _ _ e => rdVal_inv e

/-- C75: copying what a handle refers to. -/
theorem C75_copy {st : St} {s : BSt D} {v : Addr} (ht : Twin st s) (hv : Held st v) (fuel : Nat) :
    Match (ZJ.copy fuel v st) (copy fuel v s) := by
  obtain ⟨hv, x, A, h⟩ := hv
  rw [copy_full hv h]
  obtain ⟨l, hl⟩ := ht
  have hr : up (ZJ.rdVal v) s = .ok (⟨some x, A⟩, s) := by
    unfold up ZJ.rdVal
    rw [hl]
    dsimp only
    rw [h]
    dsimp only
    rw [← hl]
  have : copy fuel v s = _ := bind_ok hr
  rw [this]
  refine (Alike.bind (.innerNew _ _) fun r => ?_) st s ⟨l, hl⟩
  exact .bind (Blind.bind (.newNode _) fun _ => .bind (.setValN _ _) fun _ => .bind (.modNode _ _) fun _ => .bind (.modNode _ _) fun _ =>
    .bind (.modNode _ _) fun _ => .copyLoop _ _ _ _ _ _).alike fun _ => .pure _

theorem still_nKey (a : Addr) : Still (ZJ.nKey a) := still_rdNode.bind fun _ => still_fld
theorem Blind.nType (a : Addr) : Blind (ZJ.nType a) := .bind (.rdNode _) fun _ => .fld _
theorem Blind.nKey (a : Addr) : Blind (ZJ.nKey a) := .bind (.rdNode _) fun _ => .fld _

/-- C75: adding a copy. -/
theorem C75_arrayAdd {st : St} {s : BSt D} {vv : Addr} (ht : Twin st s) (hv : Held st vv) (fuel : Nat) (v : Addr) :
    Match (ZJ.arrayAdd fuel v vv st) (arrayAdd fuel v vv s) := by
  unfold ZJ.arrayAdd ZJ.Beta.arrayAdd
  refine AlikeAt.read (.rdVal _) still_rdVal (fun x _ => ?_) s ht
  rcases x with ⟨_ | f, A⟩
  · exact (Alike.pure _).at _
  refine .read (.nType _) still_nType fun t _ => ?_
  split
  · exact (Alike.pure _).at _
  refine .bind (fun _ ht => C75_copy ht hv fuel) fun r => ?_
  cases r
  · exact .pure _
  refine .congr (.bind (Blind.bind (.valN _) fun x => .bind (.setKey _ _) fun _ => .bind (.setFather _ _) fun _ =>
    .attach _ _).alike fun _ => .pure _) ?_
  simp only [M.assoc]
theorem C75_objAdd {st : St} {s : BSt D} {vv : Addr} (ht : Twin st s) (hv : Held st vv) (fuel : Nat) (v : Addr) :
    Match (ZJ.objAdd fuel v vv st) (objAdd fuel v vv s) := by
  unfold ZJ.objAdd ZJ.Beta.objAdd
  refine AlikeAt.read (.rdVal _) still_rdVal (fun x _ => ?_) s ht
  rcases x with ⟨_ | f, A⟩
  · exact (Alike.pure _).at _
  refine .read (.nType _) still_nType fun t _ => ?_
  split
  · exact (Alike.pure _).at _
  refine .read (.rdVal _) still_rdVal fun y _ => ?_
  rcases y with ⟨_ | x, B⟩
  · exact (Alike.pure _).at _
  refine .read (.nKey _) (still_nKey _) fun k _ => ?_
  split
  · exact (Alike.pure _).at _
  refine .bind (fun _ ht => C75_copy ht hv fuel) fun r => ?_
  cases r
  · exact .pure _
  refine .congr (.bind (Blind.bind (.valN _) fun x => .bind (.setFather _ _) fun _ => .attach _ _).alike fun _ => .pure _) ?_
  simp only [M.assoc]

/-- C75: when there is nothing to copy, both say so; only `zzzjson.h` makes a handle for nothing. -/
theorem C75_copy_empty {st : St} {s : BSt D} {v : Addr} {A : Nat} (ht : Twin st s) (hv : v < st.nv) (h : st.vals v = some ⟨none, A⟩)
    (ha : st.allocs A = true) (fuel : Nat) :
    (∃ st', ZJ.copy fuel v st = .ok (none, st') ∧ st'.nodes = st.nodes ∧ st'.bufs = st.bufs ∧ ∀ u, u < st.nv → st'.vals u = st.vals u) ∧
    copy fuel v s = .ok (none, s) := by
  have hr : ZJ.rdVal v st = .ok (⟨none, A⟩, st) := by unfold ZJ.rdVal; rw [h]
  constructor
  · refine ⟨{st with vals := upd st.vals st.nv (some ⟨none, A⟩), nv := st.nv + 1, log := .alloc A 16 :: st.log}, ?_, rfl, rfl, fun u hu => ?_⟩
    · unfold ZJ.copy
      refine (M.bind_ok hr).trans ?_
      have e : ZJ.newValue A st = .ok (st.nv, {st with vals := upd st.vals st.nv (some ⟨none, A⟩), nv := st.nv + 1, log := .alloc A 16 :: st.log}) := by
        unfold ZJ.newValue ZJ.newVal
        exact M.bind_ok (show request A 16 st = .ok ((), {st with log := .alloc A 16 :: st.log}) from if_pos ha)
      refine (M.bind_ok e).trans ?_
      refine (M.bind_ok (a := false) ?_).trans rfl
      unfold valueCopyFrom
      refine (M.bind_ok (a := ⟨none, A⟩) ?_).trans rfl
      unfold ZJ.rdVal
      dsimp only
      rw [upd, if_neg (Nat.ne_of_lt hv), h]
    · dsimp only
      rw [upd, if_neg (Nat.ne_of_lt hu)]
  · obtain ⟨l, hl⟩ := ht
    have hr : up (ZJ.rdVal v) s = .ok (⟨none, A⟩, s) := by
      unfold up ZJ.rdVal
      rw [hl]
      dsimp only
      rw [h]
      dsimp only
      rw [← hl]
    exact bind_ok hr

/-! ### Setting -/

theorem Alike.clearing (v : Addr) {m : M Unit} (h : Blind m) : Alike m (clearing v m : BM D Unit) := .initCache v h.alike
theorem Alike.guarded (v : Addr) {m : M Bool} (h : Blind m) : Alike m (guarded v m : BM D Bool) := fun st s ht => by
  unfold ZJ.Beta.guarded
  rw [bind_run]
  have := h.alike st s ht
  generalize m st = x at this
  generalize up m s = y at this
  cases this with
  | @ok a _ _ h => cases a <;> exact .ok h
  | ub => exact .ub
  | timeout => exact .timeout

/-- C75: the setters. -/
theorem C75_setNull (v : Addr) : Alike (ZJ.setNull v) (setNull v : BM D _) := .clearing v (.setScalar _ _ _ _)
theorem C75_setBool (v : Addr) (b : Bool) : Alike (ZJ.setBool v b) (setBool v b : BM D _) := .clearing v (.setBool _ _)
theorem C75_setArray (v : Addr) : Alike (ZJ.setArray v) (setArray v : BM D _) := .clearing v (.setArray _)
theorem C75_setObj (v : Addr) : Alike (ZJ.setObj v) (setObj v : BM D _) := .clearing v (.setObj _)
theorem C75_setNumStr (v : Addr) (p : SPtr) : Alike (ZJ.setNumStr v p) (setNumStr v p : BM D _) := .guarded v (.setNumStr _ _)
theorem C75_setNumStrFast (v : Addr) (p : SPtr) : Alike (ZJ.setNumStrFast v p) (setNumStrFast v p : BM D _) :=
  .guarded v (.setNumStrFast _ _)
theorem C75_setStr (v : Addr) (p : SPtr) : Alike (ZJ.setStr v p) (setStr v p : BM D _) := .guarded v (.setStr _ _)
theorem C75_setStrFast (v : Addr) (p : SPtr) : Alike (ZJ.setStrFast v p) (setStrFast v p : BM D _) := .guarded v (.setStrFast _ _)
theorem C75_setKey (v : Addr) (p : SPtr) : Alike (ZJ.setKeyC v p) (setKey v p : BM D _) := .guarded v (.setKeyC _ _)

theorem C75_setKeyFast (v : Addr) (p : SPtr) : Alike (ZJ.setKeyFast v p) (setKeyFast v p : BM D _) := .guarded v (.setKeyFast _ _)
theorem C75_setNumStrLenFast (v : Addr) (p : SPtr) (n : Nat) : Alike (ZJ.setNumStrLenFast v p n) (setNumStrLenFast v p n : BM D _) :=
  .guarded v (.setNumStrLenFast _ _ _)
theorem C75_setNumStrLen (v : Addr) (p : SPtr) (n : Nat) : Alike (ZJ.setNumStrLen v p n) (setNumStrLen v p n : BM D _) :=
  .guarded v (.setNumStrLen _ _ _)
theorem C75_setStrLenFast (v : Addr) (p : SPtr) (n : Nat) : Alike (ZJ.setStrLenFast v p n) (setStrLenFast v p n : BM D _) :=
  .guarded v (.setStrLenFast _ _ _)
theorem C75_setStrLen (v : Addr) (p : SPtr) (n : Nat) : Alike (ZJ.setStrLen v p n) (setStrLen v p n : BM D _) :=
  .guarded v (.setStrLen _ _ _)
theorem C75_setKeyLenFast (v : Addr) (p : SPtr) (n : Nat) : Alike (ZJ.setKeyLenFast v p n) (setKeyLenFast v p n : BM D _) :=
  .guarded v (.setKeyLenFast _ _ _)
theorem C75_setKeyLen (v : Addr) (p : SPtr) (n : Nat) : Alike (ZJ.setKeyLenC v p n) (setKeyLen v p n : BM D _) :=
  .guarded v (.setKeyLenC _ _ _)

/-! ### Assigning

What existed before keeps its keys and its handles: `N` nodes and `V` handles exist. -/
structure Old (N V : Nat) (m : M α) (Q : α → Prop) : Prop where
  run : ∀ st r st', N ≤ st.nn → V ≤ st.nv → m st = .ok (r, st') → N ≤ st'.nn ∧ V ≤ st'.nv ∧ Q r ∧
    (∀ u, u < V → st'.vals u = st.vals u) ∧ ∀ b nd, b < N → st.nodes b = some nd → ∃ nd', st'.nodes b = some nd' ∧ nd'.key = nd.key

variable {N V : Nat}

theorem Old.bind {m : M α} {f : α → M β} {Q : α → Prop} {R : β → Prop} (h : Old N V m Q) (hf : ∀ a, Q a → Old N V (f a) R) :
    Old N V (m >>= f) R := .mk fun st r st' h1 h2 e => by
  obtain ⟨a, st1, e1, e2⟩ := M.bind_inv e
  obtain ⟨i1, i2, q, i3, i4⟩ := h.run _ _ _ h1 h2 e1
  obtain ⟨j1, j2, q', j3, j4⟩ := (hf a q).run _ _ _ i1 i2 e2
  refine ⟨j1, j2, q', fun u hu => (j3 u hu).trans (i3 u hu), fun b nd hb hn => ?_⟩
  obtain ⟨n1, e1, k1⟩ := i4 b nd hb hn
  obtain ⟨n2, e2, k2⟩ := j4 b n1 hb e1
  exact ⟨n2, e2, k2.trans k1⟩
theorem Old.still {m : M α} (h : Still m) : Old N V m (fun _ => True) := .mk fun st r st' h1 h2 e => by
  cases h _ _ _ e
  exact ⟨h1, h2, trivial, fun _ _ => rfl, fun b nd _ hn => ⟨nd, hn, rfl⟩⟩
theorem Old.pure {a : α} {Q : α → Prop} (q : Q a) : Old N V (Pure.pure a) Q := .mk fun st r st' h1 h2 e => by
  rw [M.pure_run] at e
  cases e
  exact ⟨h1, h2, q, fun _ _ => rfl, fun b nd _ hn => ⟨nd, hn, rfl⟩⟩
theorem Old.modNode {a : Addr} {f : Node → Node} (h : ∀ n, (f n).key = n.key) : Old N V (modNode a f) (fun _ => True) :=
  .mk fun st r st' h1 h2 e => by
  have hh := modNode_holds (π := Node.key) e h
  unfold ZJ.modNode at e
  split at e <;> cases e
  exact ⟨h1, h2, trivial, fun _ _ => rfl, fun b nd _ hn => hh b nd hn⟩
theorem Old.modNew {a : Addr} {f : Node → Node} (h : N ≤ a) : Old N V (ZJ.modNode a f) (fun _ => True) := .mk fun st r st' h1 h2 e => by
  unfold ZJ.modNode at e
  split at e <;> cases e
  exact ⟨h1, h2, trivial, fun _ _ => rfl, fun b nd hb hn => ⟨nd, by simp only [upd]; rw [if_neg (by omega), hn], rfl⟩⟩
theorem Old.setValN {v : Addr} {p : Option Addr} (h : V ≤ v) : Old N V (setValN v p) (fun _ => True) := .mk fun st r st' h1 h2 e => by
  unfold ZJ.setValN at e
  split at e <;> cases e
  exact ⟨h1, h2, trivial, fun u hu => by simp only [upd]; rw [if_neg (by omega)], fun b nd hb hn => ⟨nd, hn, rfl⟩⟩
theorem Old.request {A n : Nat} : Old N V (request A n) (fun _ => True) := .mk fun st r st' h1 h2 e => by
  unfold ZJ.request at e
  split at e <;> cases e
  exact ⟨h1, h2, trivial, fun _ _ => rfl, fun b nd _ hn => ⟨nd, hn, rfl⟩⟩
theorem Old.newNode {A : Nat} : Old N V (newNode A) (fun n => N ≤ n) := .bind .request fun _ _ => .mk fun st r st' h1 h2 e => by
  cases e
  exact ⟨Nat.le_succ_of_le h1, h2, h1, fun _ _ => rfl, fun b nd hb hn => ⟨nd, by simp only [upd]; rw [if_neg (by omega), hn], rfl⟩⟩
theorem Old.newVal {A : Nat} {n : Option Addr} : Old N V (newVal A n) (fun v => V ≤ v) := .bind .request fun _ _ => .mk fun st r st' h1 h2 e => by
  cases e
  exact ⟨h1, Nat.le_succ_of_le h2, h2, fun u hu => by simp only [upd]; rw [if_neg (by omega)], fun b nd hb hn => ⟨nd, hn, rfl⟩⟩
theorem Old.newBuf {A n : Nat} {d : Bytes} : Old N V (newBuf A n d) (fun _ => True) := .bind .request fun _ _ => .mk fun st r st' h1 h2 e => by
  split at e <;> cases e
  exact ⟨h1, h2, trivial, fun _ _ => rfl, fun b nd _ hn => ⟨nd, hn, rfl⟩⟩

theorem still_readN {p : SPtr} {n : Nat} : Still (readN p n) := by
  intro st a st' e
  unfold ZJ.readN at e
  repeat' split at e
  all_goals first | cases e; rfl | cases e
theorem still_nNode {a : Addr} : Still (nNode a) := by
  unfold ZJ.nNode
  refine still_rdNode.bind fun n => still_fld.bind fun u => ?_
  split
  · intro _ _ _ e; rw [M.pure_run] at e; cases e; rfl
  all_goals intro _ _ _ e; cases e
theorem still_nStr {a : Addr} : Still (nStr a) := by
  unfold ZJ.nStr
  refine still_rdNode.bind fun n => still_fld.bind fun u => ?_
  split
  · intro _ _ _ e; rw [M.pure_run] at e; cases e; rfl
  all_goals intro _ _ _ e; cases e

theorem Old.copyKey {A : Nat} {node des : Addr} (h : N ≤ des) : Old N V (copyKey A node des) (fun _ => True) := by
  unfold ZJ.copyKey
  refine .bind (.still (still_nKey _)) fun k _ => ?_
  rcases k with _ | k
  · exact .modNew h
  · exact .bind (.still (still_rdNode.bind fun _ => still_fld)) fun _ _ => .bind (.still still_readN) fun _ _ => .bind .newBuf fun _ _ =>
      .bind (.modNew h) fun _ _ => .modNew h

theorem Old.copyNode {A : Nat} {node des : Addr} (h : N ≤ des) :
    Old N V (copyNode A node des) (fun r => ∀ c n, r = some (c, n) → N ≤ n) := by
  unfold ZJ.copyNode
  refine .bind (.still still_nType) fun ty _ => .bind (.modNode fun _ => rfl) fun _ _ => .bind (.copyKey h) fun _ _ => ?_
  have box : Old N V (do
      setLen des (← nLen node)
      match ← nNode node with
      | some c =>
        let n ← ZJ.newNode A
        setFather n (some des)
        setPrev n none
        setNodeP des (some n)
        setEnd des (some n)
        return some (c, n)
      | none =>
        setNodeP des none
        setEnd des none
        return none : M (Option (Addr × Addr))) (fun r => ∀ c n, r = some (c, n) → N ≤ n) := by
    refine .bind (.still still_nLen) fun _ _ => .bind (.modNode fun _ => rfl) fun _ _ => .bind (.still still_nNode) fun o _ => ?_
    rcases o with _ | c
    · exact .bind (.modNode fun _ => rfl) fun _ _ => .bind (.modNode fun _ => rfl) fun _ _ => .pure (by simp)
    · exact .bind .newNode fun n hn => .bind (.modNode fun _ => rfl) fun _ _ => .bind (.modNode fun _ => rfl) fun _ _ =>
        .bind (.modNode fun _ => rfl) fun _ _ => .bind (.modNode fun _ => rfl) fun _ _ => .pure (by rintro _ _ ⟨⟩; exact hn)
  have text : Old N V (do
      let len ← nLen node
      let t ← ZJ.readN (← nStr node) len
      let b ← ZJ.newBuf A len t
      setStrP des (.buf b 0)
      setLen des len
      return none : M (Option (Addr × Addr))) (fun r => ∀ c n, r = some (c, n) → N ≤ n) :=
    .bind (.still still_nLen) fun _ _ => .bind (.still still_nStr) fun _ _ => .bind (.still still_readN) fun _ _ => .bind .newBuf fun _ _ =>
      .bind (.modNode fun _ => rfl) fun _ _ => .bind (.modNode fun _ => rfl) fun _ _ => .pure (by simp)
  have word : Old N V (do
      setStrP des (← nStr node)
      setLen des (← nLen node)
      return none : M (Option (Addr × Addr))) (fun r => ∀ c n, r = some (c, n) → N ≤ n) :=
    .bind (.still still_nStr) fun _ _ => .bind (.modNode fun _ => rfl) fun _ _ => .bind (.still still_nLen) fun _ _ =>
      .bind (.modNode fun _ => rfl) fun _ _ => .pure (by simp)
  cases ty
  · exact word
  · exact box
  · exact box
  · exact text
  · exact word
  · exact text

theorem Old.copyLoop {A : Nat} {vv : Addr} : ∀ (fuel : Nat) (pc : CPC) (node des : Addr), (pc ≠ .inner → N ≤ des) →
    Old N V (copyLoop A vv fuel pc node des) (fun _ => True)
  | 0, _, _, _, _ => by
    unfold ZJ.copyLoop
    exact .still still_lift
  | fuel + 1, .body, node, des, h => by
    unfold ZJ.copyLoop
    refine .bind (.copyNode (h (by simp))) fun r hr => ?_
    rcases r with _ | ⟨c, n⟩
    · exact Old.copyLoop fuel _ _ _ (by simp)
    · exact Old.copyLoop fuel _ _ _ fun _ => hr _ _ rfl
  | fuel + 1, .test, node, des, h => by
    unfold ZJ.copyLoop
    refine .bind (.still still_rdVal) fun x _ => ?_
    split
    · exact .pure trivial
    · exact Old.copyLoop fuel _ _ _ fun _ => h (by simp)
  | fuel + 1, .inner, node, des, _ => .mk fun st r st' h1 h2 e => by
    unfold ZJ.copyLoop at e
    obtain ⟨x, s1, e1, e2⟩ := M.bind_inv e
    cases still_rdVal _ _ _ e1
    clear e
    split at e2
    · next hx =>
      cases fuel with
      | zero => unfold ZJ.copyLoop at e2; cases e2
      | succ fuel =>
        unfold ZJ.copyLoop at e2
        rw [M.bind_ok e1, if_pos hx, M.pure_run] at e2
        cases e2
        exact ⟨h1, h2, trivial, fun _ _ => rfl, fun b nd _ hn => ⟨nd, hn, rfl⟩⟩
    refine Old.run (Q := fun _ => True) ?_ _ _ _ h1 h2 e2
    refine .bind (.still (still_rdNode.bind fun _ => still_fld)) fun x _ => ?_
    rcases x with _ | x
    · exact .bind (.still still_nFather) fun _ _ => .bind (.still still_deref) fun _ _ => .bind (.modNode fun _ => rfl) fun _ _ =>
        .bind (.still still_nFather) fun _ _ => .bind (.still still_deref) fun _ _ => Old.copyLoop fuel _ _ _ (by simp)
    · exact .bind .newNode fun n hn => .bind (.still still_nFather) fun _ _ => .bind (.modNode fun _ => rfl) fun _ _ =>
        .bind (.modNode fun _ => rfl) fun _ _ => .bind (.still still_deref) fun _ _ => .bind (.modNode fun _ => rfl) fun _ _ =>
        .bind (.modNode fun _ => rfl) fun _ _ => Old.copyLoop fuel _ _ _ fun _ => hn

theorem Old.copy {fuel : Nat} {v : Addr} : Old N V (ZJ.copy fuel v) (fun _ => True) := by
  unfold ZJ.copy valueCopyFrom
  refine .bind (.still still_rdVal) fun x _ => .bind .newVal fun r hr => .bind (Q := fun _ => True) ?_ fun b _ => ?_
  · refine .bind (.still still_rdVal) fun y _ => ?_
    split
    · exact .pure trivial
    · exact .bind (.still still_rdVal) fun _ _ => .bind .newNode fun n hn => .bind (.setValN hr) fun _ _ => .bind (.modNew hn) fun _ _ =>
        .bind (.modNew hn) fun _ _ => .bind (.modNew hn) fun _ _ => .bind (.copyLoop _ _ _ _ fun _ => hn) fun _ _ => .pure trivial
  · split <;> exact .pure trivial

theorem still_nNext {a : Addr} : Still (nNext a) := still_rdNode.bind fun _ => still_fld
theorem still_nPrev {a : Addr} : Still (nPrev a) := still_rdNode.bind fun _ => still_fld

theorem Old.move {v : Addr} : Old N V (ZJ.move v) (fun _ => True) := by
  unfold ZJ.move unlinkPrev unlinkNext
  refine .bind (.still still_rdVal) fun x _ => ?_
  rcases x with ⟨_ | a, A⟩
  · exact .pure trivial
  refine .bind (.still still_nFather) fun o _ => ?_
  rcases o with _ | f
  · exact .pure trivial
  refine .bind (Q := fun _ => True) ?_ fun _ _ => .bind (Q := fun _ => True) ?_ fun _ _ =>
    .bind (.still still_nFather) fun _ _ => .bind (.still still_deref) fun _ _ => .bind (.still still_nLen) fun _ _ =>
    .bind (.modNode fun _ => rfl) fun _ _ => .bind (.modNode fun _ => rfl) fun _ _ => .pure trivial
  · refine .bind (.still still_nPrev) fun o _ => ?_
    rcases o with _ | p
    · exact .bind (.still still_nNext) fun _ _ => .modNode fun _ => rfl
    · exact .bind (.still still_nNext) fun _ _ => .bind (.modNode fun _ => rfl) fun _ _ => .modNode fun _ => rfl
  · refine .bind (.still still_nNext) fun o _ => ?_
    rcases o with _ | p
    · exact .bind (.still still_nPrev) fun _ _ => .modNode fun _ => rfl
    · exact .bind (.still still_nPrev) fun _ _ => .bind (.modNode fun _ => rfl) fun _ _ => .modNode fun _ => rfl

/-- Assigning from `x` to `a` leaves the key of `a` alone in the older header too: `a` has no key, or `x` has none. -/
def Keyless (st : St) (a x : Addr) : Prop :=
  ∃ na ka, st.nodes a = some na ∧ na.key = some ka ∧ (ka = none ∨ ∃ nx, st.nodes x = some nx ∧ nx.key = some none)

theorem nKey_run {st : St} {a : Addr} {n : Node} {k : Option SPtr} (h : st.nodes a = some n) (hk : n.key = some k) :
    ZJ.nKey a st = .ok (k, st) := by
  unfold ZJ.nKey
  refine (M.bind_ok (show ZJ.rdNode a st = .ok (n, st) by unfold ZJ.rdNode; rw [h])).trans ?_
  rw [hk]
  rfl

theorem takeKey_idle {st : St} {a x e : Addr} (h : Keyless st a e) : takeKey a x e st = .ok ((), st) := by
  obtain ⟨na, ka, h1, h2, h3⟩ := h
  unfold takeKey
  refine (M.bind_ok (nKey_run h1 h2)).trans ?_
  rcases ka with _ | k
  · rfl
  obtain h3 | ⟨nx, h3, h4⟩ := h3
  · cases h3
  · exact (M.bind_ok (nKey_run h3 h4)).trans rfl

theorem Keyless.modNode {st st' : St} {a x b : Addr} {f : Node → Node} (h : Keyless st a x) (hf : ∀ n, (f n).key = n.key)
    (e : ZJ.modNode b f st = .ok (u, st')) : Keyless st' a x := by
  obtain ⟨na, ka, h1, h2, h3⟩ := h
  obtain ⟨na', h1', h2'⟩ := modNode_holds (π := Node.key) e hf _ _ h1
  refine ⟨na', ka, h1', h2'.trans h2, h3.imp id ?_⟩
  rintro ⟨nx, h3, h4⟩
  obtain ⟨nx', h3', h4'⟩ := modNode_holds (π := Node.key) e hf _ _ h3
  exact ⟨nx', h3', h4'.trans h4⟩

theorem graft_idle {st : St} {a x e : Addr} (h : Keyless st a e) (fuel : Nat) : graft fuel a x e st = ZJ.graft fuel a x e st := by
  unfold graft ZJ.graft
  rw [M.bind_run, M.bind_run]
  cases ht : ZJ.nType x st with
  | ub u => rfl
  | timeout => rfl
  | ok r =>
    obtain ⟨ty, s1⟩ := r
    cases still_nType _ _ _ ht
    dsimp only
    rw [M.bind_run, M.bind_run]
    cases hs : setType a ty st with
    | ub u => rfl
    | timeout => rfl
    | ok r =>
      obtain ⟨_, s2⟩ := r
      dsimp only
      exact M.bind_ok (takeKey_idle (h.modNode (f := fun n => { n with type := some ty }) (fun _ => rfl) hs))

theorem AlikeAt.initCache {m : M α} {b : BM D α} {st : St} (v : Addr) (h : AlikeAt st m b) : AlikeAt st m (do initCache v; b) :=
  fun s ht => h ⟨s.st, _⟩ ht
theorem AlikeAt.congr {m m' : M α} {b : BM D α} {st : St} (h : AlikeAt st m b) (e : m' = m) : AlikeAt st m' b := e ▸ h
theorem AlikeAt.swap {m m' : M α} {st : St} (h : Blind m) (e : ∀ l, m' {st with log := l} = m {st with log := l}) :
    AlikeAt st m (up m' : BM D α) := by
  rintro ⟨_, mem⟩ ⟨l, rfl⟩
  have := h.alike st ⟨{st with log := l}, mem⟩ ⟨l, rfl⟩
  unfold up at this ⊢
  dsimp only at this ⊢
  rw [e]
  exact this

theorem rdVal_eq {st : St} {v : Addr} {x : Val} (h : ZJ.rdVal v st = .ok (x, st)) : st.vals v = some x := by
  unfold ZJ.rdVal at h
  split at h <;> cases h
  assumption

/-- Where assigning from `vv` to `v` does not touch a key: `v` is empty, or one of the two values has no key. -/
def NoClash (st : St) (v vv : Addr) : Prop := v < st.nv ∧ vv < st.nv ∧
  ∀ a x A B, st.vals v = some ⟨some a, A⟩ → st.vals vv = some ⟨some x, B⟩ → a < st.nn ∧ x < st.nn ∧ Keyless st a x

theorem Keyless.old {st st' : St} {a x : Addr} (ha : a < N) (hx : x < N) (h : Keyless st a x)
    (h' : ∀ b nd, b < N → st.nodes b = some nd → ∃ nd', st'.nodes b = some nd' ∧ nd'.key = nd.key) : Keyless st' a x := by
  obtain ⟨na, ka, h1, h2, h3⟩ := h
  obtain ⟨na', h1', h2'⟩ := h' _ _ ha h1
  refine ⟨na', ka, h1', h2'.trans h2, h3.imp id ?_⟩
  rintro ⟨nx, h3, h4⟩
  obtain ⟨nx', h3', h4'⟩ := h' _ _ hx h3
  exact ⟨nx', h3', h4'.trans h4⟩

/-- C76: assigning by moving. -/
theorem C76_setFast_partial {st : St} {s : BSt D} {v vv : Addr} (ht : Twin st s) (h : NoClash st v vv) (fuel : Nat) :
    Match (ZJ.setFast fuel v vv st) (setFast fuel v vv s) := by
  unfold ZJ.setFast ZJ.Beta.setFast
  rw [M.bind_run, bind_run]
  have hm := Alike.move (D := D) vv st s ht
  generalize hx : ZJ.move vv st = x at hm
  generalize move vv s = y at hm
  cases hm with
  | ub => exact .ub
  | timeout => exact .timeout
  | @ok r st1 s1 h1 =>
    cases r with
    | false => exact .ok h1
    | true =>
      obtain ⟨hv, hvv, h⟩ := h
      obtain ⟨-, -, -, o3, o4⟩ := (Old.move (N := st.nn) (V := st.nv) (v := vv)).run _ _ _ (Nat.le_refl _) (Nat.le_refl _) hx
      refine AlikeAt.initCache (st := st1) v (AlikeAt.initCache vv (.read (.rdVal _) still_rdVal fun y e1 => .read (.rdVal _) still_rdVal fun z e2 => ?_)) s1 h1
      have e1' := rdVal_eq e1
      have e2' := rdVal_eq e2
      rw [o3 _ hvv] at e1'
      rw [o3 _ hv] at e2'
      rcases z with ⟨_ | a, A⟩
      · refine .congr (Alike.at (.bind (Blind.bind (.setValN _ _) fun _ => .setValN _ _).alike fun _ => .pure _) _) ?_
        simp only [M.assoc]
      rcases y with ⟨_ | x, B⟩
      · intro s ht
        exact .ub
      obtain ⟨ha, hx, hk⟩ := h a x A B e2' e1'
      refine .congr (.bind (m := ZJ.graft fuel a x x >>= fun _ => ZJ.setValN vv none) (.swap (.bind (.graft _ _ _ _) fun _ => .setValN _ _) fun l => ?_) fun _ => .pure true) ?_
      · show (graft fuel a x x >>= fun _ => ZJ.setValN vv none) _ = _
        rw [M.bind_run, M.bind_run, graft_idle]
        exact hk.old ha hx o4
      · simp only [M.assoc]
        rfl

/-- C76: assigning a copy. -/
theorem C76_set_partial {st : St} {s : BSt D} {v vv : Addr} (ht : Twin st s) (hvv : Held st vv) (h : NoClash st v vv) (fuel : Nat) :
    Match (ZJ.set fuel v vv st) (set fuel v vv s) := by
  unfold ZJ.set ZJ.Beta.set
  rw [M.bind_run, bind_run]
  have hm := C75_copy ht hvv fuel
  generalize hx : ZJ.copy fuel vv st = x at hm
  generalize copy fuel vv s = y at hm
  cases hm with
  | ub => exact .ub
  | timeout => exact .timeout
  | @ok r st1 s1 h1 =>
    cases r with
    | none => exact .ok h1
    | some cp =>
      obtain ⟨-, w, C, hw⟩ := hvv
      obtain ⟨hv, hvv, h⟩ := h
      obtain ⟨-, -, -, o3, o4⟩ := (Old.copy (N := st.nn) (V := st.nv) (v := vv)).run _ _ _ (Nat.le_refl _) (Nat.le_refl _) hx
      refine AlikeAt.initCache (st := st1) v (.read (.rdVal _) still_rdVal fun y e1 => .read (.rdVal _) still_rdVal fun z e2 => ?_) s1 h1
      have e2' := rdVal_eq e2
      rw [o3 _ hv] at e2'
      rcases z with ⟨_ | a, A⟩
      · exact Alike.at (.bind (Blind.setValN _ _).alike fun _ => .pure _) _
      rcases y with ⟨_ | x, B⟩
      · intro s ht
        exact .ub
      obtain ⟨ha, hx, hk⟩ := h a w A C e2' hw
      refine .congr (.bind (m := ZJ.valN vv >>= fun e => ZJ.graft fuel a x e) (.swap (.bind (.valN _) fun _ => .graft _ _ _ _) fun l => ?_) fun _ => .pure true) ?_
      · show (ZJ.valN vv >>= fun e => graft fuel a x e) _ = _
        have hr : ZJ.valN vv {st1 with log := l} = .ok (w, {st1 with log := l}) := by
          unfold ZJ.valN
          refine (M.bind_ok (show ZJ.rdVal vv {st1 with log := l} = .ok (⟨some w, C⟩, {st1 with log := l}) from ?_)).trans rfl
          unfold ZJ.rdVal
          dsimp only
          rw [o3 _ hvv, hw]
        rw [M.bind_ok hr, M.bind_ok hr]
        exact graft_idle (st := {st1 with log := l}) (hk.old ha hx o4) _
      · simp only [M.assoc]
        rfl

/-! ### Clients -/

/-- The calls of a client, by what they return. -/
inductive Req : Type → Type 1 where
  | newAllocator : Req Nat
  | release (A : Nat) : Req Unit
  | getBool (v : Addr) : Req (Option Bool)
  | isNull (v : Addr) : Req Bool
  | setNumStrFast (v : Addr) (p : SPtr) : Req Bool
  | setNumStrLenFast (v : Addr) (p : SPtr) (n : Nat) : Req Bool
  | setNumStrLen (v : Addr) (p : SPtr) (n : Nat) : Req Bool
  | setStrLenFast (v : Addr) (p : SPtr) (n : Nat) : Req Bool
  | setStrLen (v : Addr) (p : SPtr) (n : Nat) : Req Bool
  | setKeyFast (v : Addr) (p : SPtr) : Req Bool
  | setKeyLenFast (v : Addr) (p : SPtr) (n : Nat) : Req Bool
  | setKeyLen (v : Addr) (p : SPtr) (n : Nat) : Req Bool
  | newValue (A : Nat) : Req Addr
  | objGet (v : Addr) (p : SPtr) : Req (Option Addr)
  | objGetLen (v : Addr) (p : SPtr) (n : Nat) : Req (Option Addr)
  | arrayGet (v : Addr) (i : Nat) : Req (Option Addr)
  | first (v : Addr) : Req (Option Addr)
  | next (v : Addr) : Req (Option Addr)
  | type (v : Addr) : Req (Option JType)
  | size (v : Addr) : Req Nat
  | setNull (v : Addr) : Req Unit
  | setBool (v : Addr) (b : Bool) : Req Unit
  | setArray (v : Addr) : Req Unit
  | setObj (v : Addr) : Req Unit
  | setNumStr (v : Addr) (p : SPtr) : Req Bool
  | setStr (v : Addr) (p : SPtr) : Req Bool
  | setStrFast (v : Addr) (p : SPtr) : Req Bool
  | setKey (v : Addr) (p : SPtr) : Req Bool
  | copy (v : Addr) : Req (Option Addr)
  | move (v : Addr) : Req Bool
  | set (v vv : Addr) : Req Bool
  | setFast (v vv : Addr) : Req Bool
  | objAdd (v vv : Addr) : Req Bool
  | objAddFast (v vv : Addr) : Req Bool
  | arrayAdd (v vv : Addr) : Req Bool
  | arrayAddFast (v vv : Addr) : Req Bool
  | objDel (v : Addr) (p : SPtr) : Req Bool
  | arrayDel (v : Addr) (i : Nat) : Req Bool
  | stringify (v : Addr) : Req SPtr
  | read (p : SPtr) (n : Nat) : Req Bytes

/-- A call with `zzzjson.h`. -/
def Req.new (fuel : Nat) : Req α → M α
  | .newAllocator => ZJ.newAllocator
  | .release A => ZJ.releaseAllocator A
  | .getBool v => ZJ.getBool v
  | .isNull v => ZJ.isNull v
  | .setNumStrFast v p => ZJ.setNumStrFast v p
  | .setNumStrLenFast v p n => ZJ.setNumStrLenFast v p n
  | .setNumStrLen v p n => ZJ.setNumStrLen v p n
  | .setStrLenFast v p n => ZJ.setStrLenFast v p n
  | .setStrLen v p n => ZJ.setStrLen v p n
  | .setKeyFast v p => ZJ.setKeyFast v p
  | .setKeyLenFast v p n => ZJ.setKeyLenFast v p n
  | .setKeyLen v p n => ZJ.setKeyLenC v p n
  | .newValue A => ZJ.newValue A
  | .objGet v p => ZJ.objGet fuel v p
  | .objGetLen v p n => ZJ.objGetLen fuel v p n
  | .arrayGet v i => ZJ.arrayGet fuel v i
  | .first v => ZJ.begin_ v
  | .next v => ZJ.next_ v
  | .type v => ZJ.getType v
  | .size v => ZJ.sizeOf v
  | .setNull v => ZJ.setNull v
  | .setBool v b => ZJ.setBool v b
  | .setArray v => ZJ.setArray v
  | .setObj v => ZJ.setObj v
  | .setNumStr v p => ZJ.setNumStr v p
  | .setStr v p => ZJ.setStr v p
  | .setStrFast v p => ZJ.setStrFast v p
  | .setKey v p => ZJ.setKeyC v p
  | .copy v => ZJ.copy fuel v
  | .move v => ZJ.move v
  | .set v vv => ZJ.set fuel v vv
  | .setFast v vv => ZJ.setFast fuel v vv
  | .objAdd v vv => ZJ.objAdd fuel v vv
  | .objAddFast v vv => ZJ.objAddFast v vv
  | .arrayAdd v vv => ZJ.arrayAdd fuel v vv
  | .arrayAddFast v vv => ZJ.arrayAddFast v vv
  | .objDel v p => ZJ.objDel fuel v p
  | .arrayDel v i => ZJ.arrayDel fuel v i
  | .stringify v => ZJ.stringify fuel v
  | .read p n => readN p n

/-- The same call with the older header. -/
def Req.old (fuel : Nat) : Req α → BM D α
  | .newAllocator => ZJ.Beta.newAllocator
  | .release A => ZJ.Beta.releaseAllocator A
  | .getBool v => ZJ.Beta.getBool v
  | .isNull v => ZJ.Beta.isNull v
  | .setNumStrFast v p => ZJ.Beta.setNumStrFast v p
  | .setNumStrLenFast v p n => ZJ.Beta.setNumStrLenFast v p n
  | .setNumStrLen v p n => ZJ.Beta.setNumStrLen v p n
  | .setStrLenFast v p n => ZJ.Beta.setStrLenFast v p n
  | .setStrLen v p n => ZJ.Beta.setStrLen v p n
  | .setKeyFast v p => ZJ.Beta.setKeyFast v p
  | .setKeyLenFast v p n => ZJ.Beta.setKeyLenFast v p n
  | .setKeyLen v p n => ZJ.Beta.setKeyLen v p n
  | .newValue A => ZJ.Beta.newValue A
  | .objGet v p => ZJ.Beta.objGet fuel v p
  | .objGetLen v p n => ZJ.Beta.objGetLen fuel v p n
  | .arrayGet v i => ZJ.Beta.arrayGet fuel v i
  | .first v => ZJ.Beta.begin_ v
  | .next v => ZJ.Beta.next_ v
  | .type v => ZJ.Beta.getType v
  | .size v => ZJ.Beta.sizeOf v
  | .setNull v => ZJ.Beta.setNull v
  | .setBool v b => ZJ.Beta.setBool v b
  | .setArray v => ZJ.Beta.setArray v
  | .setObj v => ZJ.Beta.setObj v
  | .setNumStr v p => ZJ.Beta.setNumStr v p
  | .setStr v p => ZJ.Beta.setStr v p
  | .setStrFast v p => ZJ.Beta.setStrFast v p
  | .setKey v p => ZJ.Beta.setKey v p
  | .copy v => ZJ.Beta.copy fuel v
  | .move v => ZJ.Beta.move v
  | .set v vv => ZJ.Beta.set fuel v vv
  | .setFast v vv => ZJ.Beta.setFast fuel v vv
  | .objAdd v vv => ZJ.Beta.objAdd fuel v vv
  | .objAddFast v vv => ZJ.Beta.objAddFast v vv
  | .arrayAdd v vv => ZJ.Beta.arrayAdd fuel v vv
  | .arrayAddFast v vv => ZJ.Beta.arrayAddFast v vv
  | .objDel v p => ZJ.Beta.objDel fuel v p
  | .arrayDel v i => ZJ.Beta.arrayDel fuel v i
  | .stringify v => ZJ.Beta.stringify fuel v
  | .read p n => up (readN p n)

/-- What is asked of a call: only handles that are not empty are copied, and no assignment is from a value
with a key to a value with a key. -/
def Req.Fits (st : St) : Req α → Prop
  | .copy v => Held st v
  | .set v vv => Held st vv ∧ NoClash st v vv
  | .setFast v vv => NoClash st v vv
  | .objAdd _ vv => Held st vv
  | .arrayAdd _ vv => Held st vv
  | _ => True

theorem Blind.readN' (p : SPtr) (n : Nat) : Blind (ZJ.readN p n) := by blind

/-- C75: one call. -/
theorem C75_call {st : St} {s : BSt D} (ht : Twin st s) (r : Req α) (h : r.Fits st) (fuel : Nat) :
    Match (r.new fuel st) (r.old fuel s) := by
  cases r with
  | newAllocator => exact Blind.newAllocator.alike _ _ ht
  | release A => exact (Blind.releaseAllocator _).alike _ _ ht
  | getBool v => exact (Blind.getBool _).alike _ _ ht
  | isNull v => exact (Blind.isNull _).alike _ _ ht
  | setNumStrFast v p => exact C75_setNumStrFast _ _ _ _ ht
  | setNumStrLenFast v p n => exact C75_setNumStrLenFast _ _ _ _ _ ht
  | setNumStrLen v p n => exact C75_setNumStrLen _ _ _ _ _ ht
  | setStrLenFast v p n => exact C75_setStrLenFast _ _ _ _ _ ht
  | setStrLen v p n => exact C75_setStrLen _ _ _ _ _ ht
  | setKeyFast v p => exact C75_setKeyFast _ _ _ _ ht
  | setKeyLenFast v p n => exact C75_setKeyLenFast _ _ _ _ _ ht
  | setKeyLen v p n => exact C75_setKeyLen _ _ _ _ _ ht
  | newValue A => exact Alike.innerNew A none _ _ ht
  | objGet v p => exact C75_objGet _ _ _ _ _ ht
  | objGetLen v p n => exact C75_objGetLen _ _ _ _ _ _ ht
  | arrayGet v i => exact C75_arrayGet _ _ _ _ _ ht
  | first v => exact C75_begin _ _ _ ht
  | next v => exact C75_next _ _ _ ht
  | type v => exact C75_type _ _ _ ht
  | size v => exact C75_size _ _ _ ht
  | setNull v => exact C75_setNull _ _ _ ht
  | setBool v b => exact C75_setBool _ _ _ _ ht
  | setArray v => exact C75_setArray _ _ _ ht
  | setObj v => exact C75_setObj _ _ _ ht
  | setNumStr v p => exact C75_setNumStr _ _ _ _ ht
  | setStr v p => exact C75_setStr _ _ _ _ ht
  | setStrFast v p => exact C75_setStrFast _ _ _ _ ht
  | setKey v p => exact C75_setKey _ _ _ _ ht
  | copy v => exact C75_copy ht h _
  | move v => exact C75_move _ _ _ ht
  | set v vv => exact C76_set_partial ht h.1 h.2 _
  | setFast v vv => exact C76_setFast_partial ht h _
  | objAdd v vv => exact C75_objAdd ht h _ _
  | objAddFast v vv => exact C75_objAddFast _ _ _ _ ht
  | arrayAdd v vv => exact C75_arrayAdd ht h _ _
  | arrayAddFast v vv => exact C75_arrayAddFast _ _ _ _ ht
  | objDel v p => exact C75_objDel _ _ _ _ _ ht
  | arrayDel v i => exact C75_arrayDel _ _ _ _ _ ht
  | stringify v => exact (Blind.stringify _ _).alike _ _ ht
  | read p n => exact (Blind.readN' _ _).alike _ _ ht

/-- A client: what it does next may depend on all it was told. -/
inductive Prog (α : Type) : Type 1 where
  | done (a : α)
  | call {β : Type} (r : Req β) (k : β → Prog α)

def Prog.new (fuel : Nat) : Prog α → M α
  | .done a => pure a
  | .call r k => do (k (← r.new fuel)).new fuel
def Prog.old (fuel : Nat) : Prog α → BM D α
  | .done a => pure a
  | .call r k => do (k (← r.old fuel)).old fuel

/-- Every call the client comes to fits. -/
def Prog.Fits (fuel : Nat) : Prog α → St → Prop
  | .done _, _ => True
  | .call r k, st => r.Fits st ∧ ∀ b st', r.new fuel st = .ok (b, st') → (k b).Fits fuel st'

/-- C75: a whole client. With both headers it does the same calls, is told the same and ends in the same way. -/
theorem C75_client (fuel : Nat) : ∀ (p : Prog α) {st : St} {s : BSt D}, Twin st s → p.Fits fuel st → Match (p.new fuel st) (p.old fuel s)
  | .done a, _, _, ht, _ => .ok ht
  | .call r k, st, s, ht, h => by
    have hm := C75_call ht r h.1 fuel
    unfold Prog.new Prog.old
    rw [M.bind_run, bind_run]
    generalize hx : r.new fuel st = x at hm
    generalize r.old fuel s = y at hm
    cases hm with
    | ok ht' => exact C75_client fuel (k _) ht' (h.2 _ _ hx)
    | ub => exact .ub
    | timeout => exact .timeout

/-- The memory of the older header is at once a memory of `zzzjson.h`, so what is proved of a call there is true here. -/
theorem C75_transfer {s : BSt D} {st' : St} {a : α} (r : Req α) (h : r.Fits s.st) {fuel : Nat} (e : r.new fuel s.st = .ok (a, st')) :
    ∃ s', r.old fuel s = .ok (a, s') ∧ Twin st' s' := by
  have hm := C75_call (st := s.st) (s := s) ⟨s.st.log, rfl⟩ r h fuel
  rw [e] at hm
  generalize r.old fuel s = y at hm
  cases hm with
  | ok h => exact ⟨_, rfl, h⟩


end ZJ.Beta
