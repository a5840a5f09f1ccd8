import Verif.PropSample
import Verif.Hops

/-!
C81, further: the code of the C++ sample program cannot be used again in the same process. The first
run leaves the library with a scratch string in the memory the program released at its end.
-/

set_option linter.unusedSimpArgs false
set_option linter.unusedVariables false

namespace ZJ

section
variable {st st' st1 st2 : St} {P : Addr → Prop} {G : Graph} {v A B : Addr} {x : Option Addr} {t u : Json} {b d s : Bytes} {p : SPtr}

/-! ### Where the first text of a document is -/

/-- The copying meets a text (a string, a number or a key) before it has finished anything: it is what
the document is, the key of its first member, or so in its first element. -/
def Json.early : Json → Bool
  | .str _ | .num _ => true
  | .obj (_ :: _) => true
  | .arr (x :: _) => x.early
  | _ => false

/-- In `st`, `m` comes to fill the scratch string, in the state `st2`. -/
def Fills {α : Type} (A : Nat) (m : M α) (st st2 : St) (p : SPtr) (n : Nat) : Prop :=
  ∃ k : ZStr → M α, (∀ z, Traces (fun _ => False) (fun _ => False) 0 (k z)) ∧ m st = (fillCache A p n >>= k) st2

theorem Fills.pre {α β : Type} {m : M α} {f : α → M β} {a : α} {n : Nat} (e : m st = .ok (a, st1)) (h : Fills A (f a) st1 st2 p n) :
    Fills A (m >>= f) st st2 p n := by
  obtain ⟨k, h1, h2⟩ := h
  exact ⟨k, h1, (M.bind_ok e).trans h2⟩

theorem Fills.bind {α β : Type} {m : M α} {f : α → M β} {n : Nat} (h : Fills A m st st2 p n)
    (hf : ∀ a, Traces (fun _ => False) (fun _ => False) 0 (f a)) : Fills A (m >>= f) st st2 p n := by
  obtain ⟨k, h1, h2⟩ := h
  refine ⟨fun z => k z >>= f, fun z => tr_bind (h1 z) hf, ?_⟩
  rw [← M.bind_assoc, M.bind_run, h2, ← M.bind_run]

theorem fills_checkStr {n : Nat} : Fills A (checkStrLenAt A p n) st st p n :=
  ⟨_, fun z => by trc, rfl⟩

theorem fills_checkNum {n : Nat} : Fills A (checkNumLenAt A p n) st st p n :=
  ⟨_, fun z => by trc, rfl⟩

section
variable {Q : Nat → Prop} {K : Bytes → Prop} {N : Nat}

theorem sampleKey_tr (o : Bool) (w v : Addr) : Traces Q K N (sampleKey o w v) := by
  unfold sampleKey; trc

theorem readmeAdd_tr (o : Bool) (w v : Addr) : Traces Q K N (readmeAdd o w v) := by
  unfold readmeAdd; trc

theorem sampleKids_tr (o : Bool) {go : Addr → Addr → M Unit} (hg : ∀ a b, Traces Q K N (go a b)) (A : Nat) (d : Addr) :
    ∀ F w, Traces Q K N (sampleKids o go A d F w)
  | 0, _ => tr_lift _
  | F + 1, .none => tr_pure _
  | F + 1, some w => by
    have ih := sampleKids_tr o hg A d F
    unfold sampleKids
    refine tr_bind (newValue_tr _) fun _ => tr_bind (sampleKey_tr _ _ _) fun _ => ?_
    split
    · exact tr_pure _
    · refine tr_bind (hg _ _) fun _ => tr_bind (readmeAdd_tr _ _ _) fun _ => ?_
      split
      · exact tr_pure _
      · exact tr_bind (next__tr _) fun _ => ih _

theorem sampleSet_tr (A : Nat) : ∀ F a b, Traces Q K N (sampleSet A F a b)
  | 0, _, _ => tr_lift _
  | F + 1, a, b => by
    have ih := sampleSet_tr A F
    unfold sampleSet
    refine tr_bind (getType_tr _) fun ty => ?_
    split
    · exact tr_pure _
    · exact tr_bind (setArray_tr _) fun _ => tr_bind (begin__tr _) fun _ => sampleKids_tr _ ih _ _ _ _
    · exact tr_bind (setObj_tr _) fun _ => tr_bind (begin__tr _) fun _ => sampleKids_tr _ ih _ _ _ _
    all_goals trc
end

/-- From every state, the copying of `t` to a new value comes to fill the scratch string; it has changed neither the
scratch string nor any text until then. -/
def FillsIn (t : Json) : Prop :=
  ∀ {st : St} {P : Addr → Prop} {G : Graph} {A B v src a : Addr}, Inv st P G →
    st.vals src = some ⟨some a, B⟩ → Unf G a t → st.vals v = some ⟨.none, A⟩ →
    ∃ c st2 p n, st2.cache = st.cache ∧ (∀ b, b < st.nb → st2.bufs b = st.bufs b) ∧ ∀ F, c ≤ F → Fills A (sampleSet A F src v) st st2 p n

theorem early_fills : ∀ (t : Json), t.early = true → FillsIn t
  | .str s, _, st, P, G, A, B, v, src, a, hI, hs, hu, hv => by
    obtain ⟨ha, hu⟩ := hu
    have hty := getType_run hI hs ha
    have hn := hu.str_inv
    obtain ⟨p, hin, hp⟩ := getStrFast_run hI hs ha hn
    rw [hn] at hty
    refine ⟨1, st, p, s.length, rfl, fun _ _ => rfl, fun F hF => ?_⟩
    obtain ⟨F, rfl⟩ : ∃ k, F = k + 1 := ⟨F - 1, by omega⟩
    simp only [sampleSet]
    refine Fills.pre hty (Fills.pre hin (Fills.bind ?_ fun _ => tr_pure _))
    exact Fills.pre (rdVal_run hv) (Fills.bind fills_checkStr fun _ => by trc)
  | .num s, _, st, P, G, A, B, v, src, a, hI, hs, hu, hv => by
    obtain ⟨ha, hu⟩ := hu
    have hty := getType_run hI hs ha
    have hn := hu.num_inv
    obtain ⟨p, hin, hp⟩ := getNumFast_run hI hs ha hn
    rw [hn] at hty
    refine ⟨1, st, p, s.length, rfl, fun _ _ => rfl, fun F hF => ?_⟩
    obtain ⟨F, rfl⟩ : ∃ k, F = k + 1 := ⟨F - 1, by omega⟩
    simp only [sampleSet]
    refine Fills.pre hty (Fills.pre hin (Fills.bind ?_ fun _ => tr_pure _))
    exact Fills.pre (rdVal_run hv) (Fills.bind fills_checkNum fun _ => by trc)
  | .obj ((key, x) :: ms), _, st, P, G, A, B, v, src, a, hI, hs, hu, hv => by
    obtain ⟨ha, hu⟩ := hu
    have hty := getType_run hI hs ha
    obtain ⟨ks, hga, hK⟩ := hu.obj_inv
    rw [hga] at hty
    obtain ⟨st2, e2, hS⟩ := setObj_run hI hv (fun _ h => (nomatch h))
    have hle : G.le (G.set (rootOf st .none) ((baseNode G .none).put (.con true []))) := fun c gc hc => by
      rw [Graph.set_ne _ _ (show c ≠ rootOf st .none from Nat.ne_of_lt (hI.lt hc))]; exact hc
    have hne : src ≠ v := fun e => by subst e; rw [hs] at hv; cases hv
    have hs2 : st2.vals src = some ⟨some a, B⟩ := by rw [hS.frame.vals src (hI.ok.val_lt hs) hne]; exact hs
    have eb := begin_run hS.inv hs2 (hle _ _ ha)
    rw [hga] at eb
    cases hK with
    | cons h1 h2 h3 h4 =>
      rename_i k ks gk
      have hA2 : st2.allocs A = true := hS.inv.ok.live _ _ hS.vals
      have ob := hS.inv.ok.addV (A := B) (x := some k) (hS.inv.ok.live _ _ hs2)
      have i3 := (hS.inv.unchanged unch_addV ob).unchanged unch_addV (ob.addV (A := A) (x := .none) hA2)
      have hnx : ((st2.addV B (some k)).addV A .none).vals st2.nv = some ⟨some k, B⟩ := by simp [St.addV, upd]
      have hnv : ((st2.addV B (some k)).addV A .none).vals (st2.nv + 1) = some ⟨.none, A⟩ := by simp [St.addV, upd]
      have hkey : gk.key = some key := h2
      obtain ⟨p, ekey, hp⟩ := (getKey_run i3 hnx (hle _ _ h1) hkey).2
      refine ⟨2, (st2.addV B (some k)).addV A .none, p, key.length, hS.cache, fun b _ => congrFun hS.bufs b, fun F hF => ?_⟩
      obtain ⟨F, rfl⟩ : ∃ k, F = k + 2 := ⟨F - 2, by omega⟩
      unfold sampleSet
      refine Fills.pre hty (Fills.pre e2 (Fills.pre eb ?_))
      unfold sampleKids
      refine Fills.pre (newVal_run hA2) (Fills.bind ?_ fun y => ?_)
      · unfold sampleKey
        simp only [if_true]
        refine Fills.pre ekey (Fills.bind ?_ fun _ => tr_pure _)
        exact Fills.pre (rdVal_run hnv) (Fills.bind fills_checkStr fun _ => by trc)
      · split
        · exact tr_pure _
        · refine tr_bind (sampleSet_tr _ _ _ _) fun _ => tr_bind (readmeAdd_tr _ _ _) fun _ => ?_
          split
          · exact tr_pure _
          · exact tr_bind (next__tr _) fun _ => sampleKids_tr _ (sampleSet_tr _ _) _ _ _ _
  | .arr (x :: xs), hx, st, P, G, A, B, v, src, a, hI, hs, hu, hv => by
    obtain ⟨ha, hu⟩ := hu
    have hty := getType_run hI hs ha
    obtain ⟨ks, hga, hK⟩ := hu.arr_inv
    rw [hga] at hty
    obtain ⟨st2, e2, hS⟩ := setArray_run hI hv (fun _ h => (nomatch h))
    have hle : G.le (G.set (rootOf st .none) ((baseNode G .none).put (.con false []))) := fun c gc hc => by
      rw [Graph.set_ne _ _ (show c ≠ rootOf st .none from Nat.ne_of_lt (hI.lt hc))]; exact hc
    have hne : src ≠ v := fun e => by subst e; rw [hs] at hv; cases hv
    have hs2 : st2.vals src = some ⟨some a, B⟩ := by rw [hS.frame.vals src (hI.ok.val_lt hs) hne]; exact hs
    have eb := begin_run hS.inv hs2 (hle _ _ ha)
    rw [hga] at eb
    cases hK with
    | cons h1 h2 h3 h4 =>
      rename_i k ks gk
      have hA2 : st2.allocs A = true := hS.inv.ok.live _ _ hS.vals
      have ob := hS.inv.ok.addV (A := B) (x := some k) (hS.inv.ok.live _ _ hs2)
      have i3 := (hS.inv.unchanged unch_addV ob).unchanged unch_addV (ob.addV (A := A) (x := .none) hA2)
      have hnx : ((st2.addV B (some k)).addV A .none).vals st2.nv = some ⟨some k, B⟩ := by simp [St.addV, upd]
      have hnv : ((st2.addV B (some k)).addV A .none).vals (st2.nv + 1) = some ⟨.none, A⟩ := by simp [St.addV, upd]
      obtain ⟨c, st3, p, n, c3, b3, hf⟩ := early_fills x hx i3 hnx (h3.mono hle) hnv
      refine ⟨c + 2, st3, p, n, c3.trans hS.cache, fun b hb => (b3 b (by show b < st2.nb; rw [hS.nb]; exact hb)).trans (congrFun hS.bufs b), fun F hF => ?_⟩
      obtain ⟨F, rfl⟩ : ∃ k, F = k + 2 := ⟨F - 2, by omega⟩
      unfold sampleSet
      refine Fills.pre hty (Fills.pre e2 (Fills.pre eb ?_))
      unfold sampleKids
      refine Fills.pre (newVal_run hA2) (Fills.pre (show sampleKey false _ _ _ = .ok (true, _) from rfl) ?_)
      refine Fills.bind (hf (F + 1) (by omega)) fun _ => tr_bind (readmeAdd_tr _ _ _) fun _ => ?_
      split
      · exact tr_pure _
      · exact tr_bind (next__tr _) fun _ => sampleKids_tr _ (sampleSet_tr _ _) _ _ _ _

/-! ### Whose the scratch string is -/

section
variable {k : Kit} {Pre : Prop}

theorem Tri.nStr (a : Addr) : Tri k Pre (ZJ.nStr a) Any := by unfold ZJ.nStr; tri
theorem Tri.nKeyLen (a : Addr) : Tri k Pre (ZJ.nKeyLen a) Any := by unfold ZJ.nKeyLen; tri

macro "tri3" : tactic => `(tactic| repeat' (first
  | with_reducible exact Tri.nStr _ | with_reducible exact Tri.nKeyLen _ | tri2))

theorem Tri.getType (v : Addr) : Tri k Pre (ZJ.getType v) Any := by unfold ZJ.getType; tri3
theorem Tri.getStrFast (v : Addr) : Tri k Pre (ZJ.getStrFast v) Any := by unfold ZJ.getStrFast; tri3
theorem Tri.getNumFast (v : Addr) : Tri k Pre (ZJ.getNumFast v) Any := by unfold ZJ.getNumFast; tri3
theorem Tri.getKeyFast (v : Addr) : Tri k Pre (ZJ.getKeyFast v) Any := by unfold ZJ.getKeyFast; tri3
theorem Tri.getBool (v : Addr) : Tri k Pre (ZJ.getBool v) Any := by unfold ZJ.getBool; tri3
theorem Tri.isNull (v : Addr) : Tri k Pre (ZJ.isNull v) Any := by unfold ZJ.isNull; tri3

/-- All pointers may be used, and the allocator `A`. -/
structure Kit.Free (k : Kit) (A : Nat) : Prop where
  q : ∀ p, k.Q p
  cs : ∀ A, k.As A → k.Cs A
  as : k.As A

theorem Kit.Free.fine (h : k.Free A) : k.Fine := ⟨fun _ _ _ _ _ => h.q _, fun _ => h.q _, fun _ _ _ => h.q _⟩

theorem Tri.begin_ (v : Addr) (hv : Pre → k.Hs v) : Tri k Pre (ZJ.begin_ v) fun o => ∀ r, o = some r → k.Hs r := by
  unfold ZJ.begin_
  refine .bind (.rdA v hv) fun y => ?_
  split
  · exact .pure fun _ _ e => (nomatch e)
  · refine .bind (.nType _) fun t => ?_
    split
    · exact .pure fun _ _ e => (nomatch e)
    · refine .bind (.nNode _) fun n => ?_
      split
      · exact .bind (.newVal _ _ fun h => h.1.1.2) fun _ => .pure fun h r e => by cases e; exact h.2
      · exact .pure fun _ _ e => (nomatch e)

theorem Tri.next_ (v : Addr) (hv : Pre → k.Hs v) : Tri k Pre (ZJ.next_ v) fun o => ∀ r, o = some r → k.Hs r := by
  unfold ZJ.next_
  refine .bind (.rdA v hv) fun y => ?_
  split
  · exact .pure fun _ _ e => (nomatch e)
  · refine .bind (.nNext _) fun n => ?_
    split
    · exact .bind (.newVal _ _ fun h => h.1.2) fun _ => .pure fun h r e => by cases e; exact h.2
    · exact .pure fun _ _ e => (nomatch e)

theorem Tri.sampleKey (h : k.Free A) (o : Bool) (w v : Addr) (hv : Pre → k.Hs v) : Tri k Pre (sampleKey o w v) Any := by
  unfold ZJ.sampleKey
  split
  · refine .bind (.getKeyFast _) fun r => ?_
    split
    · exact .pure fun _ => trivial
    · exact .bind (.setKeyLenFast h.cs h.fine _ _ _ (fun h => hv h.1) fun _ => h.q _) fun _ => .pure fun _ => trivial
  · exact .pure fun _ => trivial

theorem Tri.readmeAdd (o : Bool) (w v : Addr) : Tri k Pre (readmeAdd o w v) Any := by
  unfold ZJ.readmeAdd
  split
  · exact .objAddFast _ _
  · exact .arrayAddFast _ _

theorem Tri.sampleKids (h : k.Free A) (o : Bool) {go : Addr → Addr → M Unit}
    (hg : ∀ {Pre : Prop} a b, (Pre → k.Hs a) → (Pre → k.Hs b) → Tri k Pre (go a b) Any) (d : Addr) :
    ∀ F w {Pre : Prop}, (Pre → ∀ r, w = some r → k.Hs r) → Tri k Pre (sampleKids o go A d F w) Any
  | 0, _, _, _ => .lift _
  | F + 1, .none, _, _ => .pure fun _ => trivial
  | F + 1, some w, _, hw => by
    have ih := @Tri.sampleKids h o go @hg d F
    unfold ZJ.sampleKids
    refine .bind (.newVal A .none fun _ => h.as) fun v => .bind (.sampleKey h _ _ _ fun h => h.2) fun _ => ?_
    split
    · exact .pure fun _ => trivial
    · refine .bind (hg _ _ (fun h => hw h.1.1 _ rfl) (fun h => h.1.2)) fun _ => .bind (.readmeAdd _ _ _) fun _ => ?_
      split
      · exact .pure fun _ => trivial
      · exact .bind (.next_ _ fun h => hw h.1.1.1.1 _ rfl) fun _ => ih _ fun h => h.2

theorem Tri.sampleSet (h : k.Free A) : ∀ F a b {Pre : Prop}, (Pre → k.Hs a) → (Pre → k.Hs b) → Tri k Pre (sampleSet A F a b) Any
  | 0, _, _, _, _, _ => .lift _
  | F + 1, a, b, _, ha, hb => by
    have ih := @Tri.sampleSet h F
    unfold ZJ.sampleSet
    refine .bind (.getType _) fun ty => ?_
    split
    · exact .pure fun _ => trivial
    · exact .bind (.setArray _ fun h => hb h.1) fun _ => .bind (.begin_ _ fun h => ha h.1.1) fun _ => .sampleKids h _ (fun a b => ih a b) _ _ _ fun h => h.2
    · exact .bind (.setObj _ fun h => hb h.1) fun _ => .bind (.begin_ _ fun h => ha h.1.1) fun _ => .sampleKids h _ (fun a b => ih a b) _ _ _ fun h => h.2
    · refine .bind (.getBool _) fun r => ?_
      split
      · exact .pure fun _ => trivial
      · exact .setBool h.fine _ _ fun h => hb h.1.1
    · refine .bind (.isNull _) fun r => ?_
      split
      · exact .pure fun _ => trivial
      · exact .setNull h.fine _ fun h => hb h.1.1
    · refine .bind (.getStrFast _) fun r => ?_
      split
      · exact .pure fun _ => trivial
      · exact .bind (.setStrLenFast h.cs _ _ _ (fun h => hb h.1.1) fun _ => h.q _) fun _ => .pure fun _ => trivial
    · refine .bind (.getNumFast _) fun r => ?_
      split
      · exact .pure fun _ => trivial
      · exact .bind (.setNumStrLen h.cs h.fine _ _ _ fun h => hb h.1.1) fun _ => .pure fun _ => trivial

end

/-! ### The second run -/

theorem Inv.none (h : StOK st) : Inv st (fun _ => False) (fun _ => .none) :=
  ⟨h, fun _ h => h.elim, fun _ _ h => (nomatch h), fun _ _ h => (nomatch h)⟩

/-- The state after `zj_NewAllocator`. -/
def St.addA (st : St) : St := { st with allocs := upd st.allocs st.na true, na := st.na + 1, log := .new st.na :: st.log }

theorem StOK.addA (h : StOK st) : StOK st.addA :=
  { h with
    live := fun v x hv => by
      show upd st.allocs st.na true x.a = true
      by_cases e : x.a = st.na
      · rw [e, upd_same]
      · rw [upd_ne _ _ e]; exact h.live v x hv }

/-- Whatever else happened before: when the memory of the scratch string was released, the copying
reads freed memory as soon as it meets a text. -/
theorem sampleMain_gone (hok : StOK st) (hg : CacheGone st) (ht : JText t b) (hx : FillsIn t) :
    ∃ c, ∀ F, c ≤ F → sampleMain F b st = .ub .wild := by
  have o0 := hok.addA
  have a0 : st.addA.allocs st.na = true := upd_same _ _ _
  have o1 := o0.addV (x := .none) a0
  have o2 := o1.addV (A := st.na) (x := .none) a0
  generalize hs : ((st.addA.addV st.na .none).addV st.na .none) = s2 at o2
  have hnb : s2.nb = st.nb := by rw [← hs]; rfl
  have hi := (Inv.none o2).addC_pin (d := b ++ [0])
  have hval : (s2.addC (b ++ [0])).vals st.nv = some ⟨.none, st.na⟩ := by
    rw [← hs]
    show upd (upd st.vals st.nv _) (st.nv + 1) _ st.nv = _
    rw [upd_ne _ _ (by omega), upd_same]
  have hval' : (s2.addC (b ++ [0])).vals (st.nv + 1) = some ⟨.none, st.na⟩ := by
    rw [← hs]
    show upd (upd st.vals st.nv _) (st.nv + 1) _ (st.nv + 1) = _
    rw [upd_same]
  obtain ⟨s4, gv, g, e4, i4, u4, v4, c4, h6, f4, _⟩ := parseFast_accept hi hval (fun _ h => (nomatch h))
    (addC_cstr ht.no_nul) (fun c off h => .inr (by cases h; rfl)) ht
  have hv1 : s4.vals (st.nv + 1) = some ⟨.none, st.na⟩ := by
    rw [f4.vals (st.nv + 1) (by rw [← hs]; exact Nat.lt_succ_self _) (by omega)]; exact hval'
  have hg4 : CacheGone s4 := by
    obtain ⟨z, z1, z2⟩ := hg
    have hz := hok.cache z z1
    refine ⟨z, c4.trans (by rw [← hs]; exact z1), ?_⟩
    rw [f4.bufs z.hdr (by show z.hdr < s2.nb + 1; omega) id]
    show upd s2.bufs s2.nb _ z.hdr = _
    rw [upd_ne _ _ (by omega), ← hs]
    exact z2
  obtain ⟨c, s5, p, n, c5, b5, hf⟩ := hx i4 v4 u4 hv1
  have hg5 : CacheGone s5 := by
    obtain ⟨z, z1, z2⟩ := hg4
    exact ⟨z, c5.trans z1, (b5 _ (i4.ok.cache z z1).1).trans z2⟩
  have hset : ∀ F, c ≤ F → sampleSet st.na F st.nv (st.nv + 1) s4 = .ub .wild := fun F hF => by
    obtain ⟨k, _, e⟩ := hf F hF
    exact e.trans (M.bind_ub (hg5.fill _ _ _))
  have e : withText (b ++ [0]) true (parseFast st.nv) s2 = .ok (true, s4) :=
    (M.bind_ok (callerText_run _ _)).trans ((M.bind_ok e4).trans rfl)
  refine ⟨c, fun F hF => ?_⟩
  unfold sampleMain
  refine (M.bind_ok (show newAllocator st = .ok (st.na, st.addA) from rfl)).trans ?_
  refine (M.bind_ok (show newValue st.na st.addA = .ok (st.nv, st.addA.addV st.na .none) from newVal_run a0)).trans ?_
  refine (M.bind_ok (show newValue st.na (st.addA.addV st.na .none) = .ok (st.nv + 1, s2) from hs ▸ newVal_run (st := st.addA.addV st.na .none) a0)).trans ?_
  refine (M.bind_ok e).trans ?_
  exact M.bind_ub (hset F hF)

/-! ### The first run -/

theorem Hops.scratch {Q : Nat → Prop} {K : Bytes → Prop} {N : Nat} (h : Hops Q K N st st') (h0 : st.cache.isSome = true) : st'.cache.isSome = true :=
  h.keeps (I := fun s => s.cache.isSome = true) (fun a b h e => by cases h <;> first | exact e | rfl) h0

theorem Fills.scratch {α : Type} {m : M α} {n : Nat} {r : α} (h : Fills A m st st2 p n) (e : m st = .ok (r, st')) : st'.cache.isSome = true := by
  obtain ⟨k, h1, h2⟩ := h
  rw [h2] at e
  obtain ⟨z, st3, e1, e⟩ := ok_bind e
  refine (h1 z _ _ _ (Nat.zero_le _) e).scratch ?_
  unfold fillCache at e1
  obtain ⟨_, _, _, e1⟩ := ok_bind e1
  obtain ⟨_, _, _, e1⟩ := ok_bind e1
  obtain ⟨_, _, _, e1⟩ := ok_bind e1
  obtain ⟨_, _, _, e1⟩ := ok_bind e1
  obtain ⟨_, _, e2, e1⟩ := ok_bind e1
  cases e2
  cases e1
  rfl

/-- A run from the state `s`: everything it makes is of allocator `A`, and its handles are `N` or more. -/
def sampleKit (s : St) (A N : Nat) (stF : St) : Kit :=
  { st0 := s, stF := stF, As := (· = A), Hs := (N ≤ ·), Q := fun _ => True, Y := fun _ _ => True, Cs := (· = A), W := True }

theorem sampleKit_free {s stF : St} {N : Nat} : (sampleKit s A N stF).Free A :=
  ⟨fun _ => trivial, fun _ h => h, rfl⟩

/-- After the loop of a run that began without a scratch string, the scratch string, if there is one, is in memory of the
allocator of the run. -/
theorem sample_owned {s st4 st5 : St} {y : Bool} {F N src des : Nat} {p : SPtr} (hok : StOK s) (hn : s.cache = .none) (hN : N ≤ s.nv)
    (hh : ∀ v y, N ≤ v → s.vals v = some y → y.a = A) (hsrc : N ≤ src) (hdes : N ≤ des)
    (e4 : parseFast src p s = .ok (y, st4)) (e5 : sampleSet A F src des st4 = .ok ((), st5))
    {z : ZStr} (hz : st5.cache = some z) : ∃ bf, st5.bufs z.hdr = some bf ∧ bf.owner = some A := by
  have hfree := sampleKit_free (A := A) (s := s) (N := N) (stF := st5)
  have hT : Tri (sampleKit s A N st5) True (parseFast src p >>= fun _ => sampleSet A F src des) Any :=
    .bind (.parseFast hfree.fine src _ (fun _ => hsrc) (fun _ => trivial) fun _ _ _ _ _ => ⟨fun _ _ => .inl trivial, fun _ _ => .inl trivial⟩) fun _ =>
      .sampleSet hfree F src des (fun _ => hsrc) fun _ => hdes
  have hM : Mid (sampleKit s A N st5) s :=
    { old := fun a n h => ⟨n, h, rfl, .inl rfl, .inl rfl⟩
      new := fun a n h h' => by rw [show (sampleKit s A N st5).st0.nodes a = s.nodes a from rfl, h'] at h; cases h
      hs := fun v y hv h => hh v y hv h
      hnew := fun v hv => Nat.le_trans hN hv
      cache := fun z h => by rw [hn] at h; cases h
      cacheO := fun z h => by rw [show (sampleKit s A N st5).st0.cache = s.cache from rfl, hn] at h; cases h
      cacheN := fun _ z h => by rw [hn] at h; cases h }
  obtain ⟨hM', _⟩ := hT.go _ _ _ ((M.bind_ok e4).trans e5) ⟨hok.nodes, hok.bufs⟩ hM .refl trivial
  have h1 := (hM'.cache z hz trivial).1
  have h2 : z.a = A := hM'.cacheN hn z hz
  rw [h2] at h1
  exact h1

/-- What the program leaves when it comes to fill the scratch string: the scratch string is in memory that was released. -/
theorem sampleMain_leaves (slack : Nat → Nat) {cfg : Cfg} (ht : JText t b) (hx : FillsIn t) :
    ∃ c st', (∀ F, c ≤ F → sampleMain F b (St.init slack cfg) = .ok (some ((t.cut.map Json.print).getD []), st')) ∧ StOK st' ∧ CacheGone st' := by
  obtain ⟨h, _, _⟩ := sampleStart_ready slack cfg b
  obtain ⟨st4, G4, e4, h4, hT, hu, hF⟩ := parseFast_tidy h (fun _ _ h => (nomatch h)) (show CStr (sampleStart slack cfg b) (.buf 0 0) b from addC_cstr ht.no_nul)
    inP_pinned ht
  have hv1 : st4.vals 1 = some ⟨.none, 0⟩ := hF.vals 1 (show 1 < 2 by decide) (by decide)
  have hnv : 2 ≤ st4.nv := hF.nv
  have hS : Slot { st4 with nv := 1 } st4 G4 (pinned (fun _ => False) (.buf 0 0)) G4 0 1 .none :=
    { ready := ⟨h4.inv, h4.cok, hv1, fun _ h => (nomatch h)⟩
      tidy := hT
      root := fun _ h => (nomatch h)
      nv := Nat.le_refl _
      low := fun _ _ => rfl
      closed := fun c gc k hc hg _ => absurd (h4.inv.lt hg) (Nat.not_lt.2 hc)
      vals := fun _ _ => rfl
      upn := Nat.le_refl _
      upv := by show 1 ≤ st4.nv; omega }
  obtain ⟨c5, st5, P5, e5, hR⟩ := into (t.held + 1) t (by omega) ht.valid (st := { st4 with nv := 1 }) (fun c gc hc => h4.inv.lt hc) hS (show 0 < 1 by decide) h4.val hu
  obtain ⟨c0, s2, p, n, _, _, hf⟩ := hx h4.inv h4.val hu hv1
  have hsome : st5.cache.isSome = true := (hf _ (Nat.le_max_left c0 c5)).scratch (e5 _ (Nat.le_max_right c0 c5))
  obtain ⟨z, hz⟩ := Option.isSome_iff_exists.1 hsome
  have hh : ∀ v y, 0 ≤ v → (sampleStart slack cfg b).vals v = some y → y.a = 0 := fun v y _ h => by
    have h : upd (upd (fun _ => Option.none) 0 (some ⟨.none, 0⟩)) 1 (some ⟨.none, 0⟩) v = some y := h
    unfold upd at h
    split at h
    · cases h; rfl
    · split at h
      · cases h; rfl
      · cases h
  obtain ⟨bf, hb, ho⟩ := sample_owned h.inv.ok rfl (Nat.zero_le _) hh (Nat.zero_le _) (Nat.zero_le _) e4 (e5 _ (Nat.le_refl _)) hz
  rcases hR with ⟨u, G5, n, hcut, h5, _⟩ | ⟨hcut, h5⟩
  · obtain ⟨c6, p, st6, e6, hp, _, hun, h6⟩ := C09_stringify h5.ready h5.shows
    have hprint : u.print.takeWhile (· ≠ 0) = u.print := takeWhile_self (print_text (Json.cut_valid ht.valid hcut)).no_nul
    have e7 := readC_holds hp
    rw [hprint] at e7
    have hb6 : st6.bufs z.hdr = some bf := (hun.1.bufs _ (h5.ready.inv.ok.cache z hz).1 id).trans hb
    refine ⟨max c5 c6, st6.without 0, fun F hF => ?_, h6.inv.ok.without, z, hun.2.trans hz, by simp [St.without, hb6, ho]⟩
    rw [sampleMain_parsed e4, hcut]
    mstep e5 F (by omega)
    mstep e6 F (by omega)
    mstep e7
    mstep release_run h6.alloc
    rfl
  · refine ⟨c5, st5.without 0, fun F hF => ?_, h5.ready.inv.ok.without, z, hz, by simp [St.without, hb, ho]⟩
    rw [sampleMain_parsed e4, hcut]
    mstep e5 F (by omega)
    mstep (show stringify F 1 st5 = .ok (.lit { bytes := [] }, st5) from (M.bind_ok (rdVal_run h5.ready.val)).trans rfl)
    mstep (show readC (some (.lit { bytes := [] })) st5 = .ok (some [], st5) from rfl)
    mstep release_run h5.ready.alloc
    rfl

/-- C81, the code of the sample cannot be used again: for all two texts that have an early text each (as every
string, every number, every object with a member, and every array that begins with one of these has), the program run
for the second time in a process reads freed memory. The first run prints what `C81_prints` says. -/
theorem C81_again_false (slack : Nat → Nat) {cfg : Cfg} (ht : JText t b) (hx : t.early = true) (hu : JText u d) (hy : u.early = true) :
    ∃ c, ∀ F, c ≤ F → ((do
      let first ← sampleMain F b
      let second ← sampleMain F d
      return (first, second) : M _) (St.init slack cfg)).out = .ub .wild := by
  obtain ⟨c, st', e, ho, hg⟩ := sampleMain_leaves slack (cfg := cfg) ht (early_fills t hx)
  obtain ⟨c', e'⟩ := sampleMain_gone ho hg hu (early_fills u hy)
  refine ⟨max c c', fun F hF => ?_⟩
  have : (do
      let first ← sampleMain F b
      let second ← sampleMain F d
      return (first, second) : M _) (St.init slack cfg) = .ub .wild :=
    (M.bind_ok (e F (by omega))).trans (M.bind_ub (e' F (by omega)))
  rw [this]
  rfl

/-- The text of the sample program is such a text. -/
example : (Json.arr [.obj [(b!"key", .bool true)], .num b!"1"]).early = true := by decide

/-- One such pair of runs, computed. -/
theorem C81_again_sample : ((do
      let _ ← sampleMain 99 b!"[{\"key\":true},1]"
      sampleMain 99 b!"[{\"key\":true},1]" : M _) (St.init fun _ => 0)).out = .ub .wild := by decide +kernel

/-- Without strings, numbers and keys there is no scratch string, and the second run is as good as the first. -/
example : ((do
      let a ← sampleMain 99 b!"[true,null]"
      let b ← sampleMain 99 b!"[true]"
      return (a, b) : M _) (St.init fun _ => 0)).out = .ok (some b!"[true,null]", some b!"[true]") := by decide +kernel

end

end ZJ
