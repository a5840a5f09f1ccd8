import Verif.PropTimeFind

/-
C74: reading a whole document takes time linear in its size, reading an array by its indices
quadratic time.
-/

set_option linter.unusedSimpArgs false
set_option linter.unusedVariables false

namespace ZJ

/-! ### What is claimed -/

mutual
/-- All values of a document, itself first, each before its children. -/
def Json.all : Json → List Json
  | .arr xs => .arr xs :: Json.allElems xs
  | .obj ms => .obj ms :: Json.allMembers ms
  | t => [t]
def Json.allElems : List Json → List Json
  | [] => []
  | t :: ts => t.all ++ Json.allElems ts
def Json.allMembers : List (Bytes × Json) → List Json
  | [] => []
  | (_, t) :: ms => t.all ++ Json.allMembers ms
end

/-- The handles `ws` show the documents `ts`, one each. -/
def AllShow (st : St) : List Addr → List Json → Prop
  | [], [] => True
  | w :: ws, t :: ts => Shows st w t ∧ AllShow st ws ts
  | _, _ => False

/-! ### The programs -/

mutual
/-- The user's recursive function `visit(v) { …; for (w = zj_Begin(v); w != 0; w = zj_Next(w)) visit(w); }`,
collecting the handles. -/
def visit : Nat → Addr → M (List Addr)
  | 0, _ => lift .timeout
  | fuel + 1, v => do
    let r ← along fuel (← begin_ v)
    return v :: r
/-- Its loop. -/
def along : Nat → Option Addr → M (List Addr)
  | 0, _ => lift .timeout
  | _ + 1, none => pure []
  | fuel + 1, some w => do
    let r ← visit fuel w
    let r' ← along fuel (← next_ w)
    return r ++ r'
end

mutual
/-- `visit`, counting the steps of the calls. -/
def visitT : Nat → Addr → TM (List Addr)
  | 0, _ => steps 0 (lift .timeout)
  | fuel + 1, v => do
    let r ← alongT fuel (← begin_T v)
    return v :: r
def alongT : Nat → Option Addr → TM (List Addr)
  | 0, _ => steps 0 (lift .timeout)
  | _ + 1, none => pure []
  | fuel + 1, some w => do
    let r ← visitT fuel w
    let r' ← alongT fuel (← next_T w)
    return r ++ r'
end

/-- The user's loop `for (; i < n; i++) zj_ArrayGet(v, i)` with `n` turns to go. -/
def byIndex (fuel : Nat) (v : Addr) : Nat → Nat → M (List (Option Addr))
  | 0, _ => pure []
  | n + 1, i => do
    let w ← arrayGet fuel v i
    let r ← byIndex fuel v n (i + 1)
    return w :: r

def byIndexT (fuel : Nat) (v : Addr) : Nat → Nat → TM (List (Option Addr))
  | 0, _ => pure []
  | n + 1, i => do
    let w ← arrayGetT fuel v i
    let r ← byIndexT fuel v n (i + 1)
    return w :: r

/-! ### Proofs -/

mutual
theorem visitT_val : ∀ (F : Nat) (v : Addr), (visitT F v).val = visit F v
  | 0, _ => by simp [visitT, visit]
  | F + 1, v => by
    unfold visitT visit
    simp [alongT_val F]
theorem alongT_val : ∀ (F : Nat) (o : Option Addr), (alongT F o).val = along F o
  | 0, o => by cases o <;> simp [alongT, along]
  | F + 1, none => by simp [alongT, along]
  | F + 1, some w => by
    unfold alongT along
    simp [alongT_val F, visitT_val F]
end

theorem byIndexT_val (F : Nat) (v : Addr) : ∀ (n i : Nat), (byIndexT F v n i).val = byIndex F v n i
  | 0, _ => by simp [byIndexT, byIndex]
  | n + 1, i => by
    unfold byIndexT byIndex
    simp [byIndexT_val F v n]

mutual
theorem visitT_le : ∀ (F : Nat) (v : Addr) (st : St), Run (visitT F v) st fun ws k _ => k + 3 ≤ 7 * ws.length
  | 0, _, _ => fun _ _ _ e => nomatch e
  | F + 1, v, st => by
    unfold visitT
    refine Run.bind (R := fun _ k _ => k ≤ 4) (fun a k st' e => by simpa using fee_begin _ _ _ _ e) fun o k st1 h1 => ?_
    refine Run.bind (alongT_le F o st1) fun r k' st2 h2 => ?_
    exact Run.pure (by simp only [List.length_cons]; omega)
theorem alongT_le : ∀ (F : Nat) (o : Option Addr) (st : St), Run (alongT F o) st fun ws k _ => k ≤ 7 * ws.length
  | 0, o, _ => fun _ _ _ e => by cases o <;> cases e
  | F + 1, none, st => Run.pure (by simp)
  | F + 1, some w, st => by
    unfold alongT
    refine Run.bind (visitT_le F w st) fun r k st1 h1 => ?_
    refine Run.bind (R := fun _ k _ => k ≤ 3) (fun a k st' e => by simpa using fee_next _ _ _ _ e) fun o k' st2 h2 => ?_
    refine Run.bind (alongT_le F o st2) fun r' k'' st3 h3 => ?_
    exact Run.pure (by simp only [List.length_append]; omega)
end

/-- The values of all children. -/
def allI (ms : List (Bytes × Json)) : List Json := ms.flatMap fun m => m.2.all

theorem allElems_eq : ∀ ts : List Json, Json.allElems ts = allI (ts.map fun x => ([], x))
  | [] => rfl
  | t :: ts => by simp [Json.allElems, allElems_eq ts, allI]

theorem allMembers_eq : ∀ ms : List (Bytes × Json), Json.allMembers ms = allI ms
  | [] => rfl
  | (_, t) :: ms => by simp [Json.allMembers, allMembers_eq ms, allI]

theorem all_eq (t : Json) : t.all = t :: allI t.items := by
  cases t with
  | arr xs => simp [Json.all, Json.items, allElems_eq]
  | obj ms => simp [Json.all, Json.items, allMembers_eq]
  | _ => rfl

section
variable {st st' : St} {v w : Addr} {P : Addr → Prop} {G : Graph} {A : Nat} {x : Option Addr} {t : Json}

/-- The handles `ws` are on nodes with the documents `ts`. -/
def Covers (G : Graph) (st : St) : List Addr → List Json → Prop
  | [], [] => True
  | w :: ws, t :: ts => (∃ k A, st.vals w = some ⟨some k, A⟩ ∧ Unf G k t) ∧ Covers G st ws ts
  | _, _ => False

theorem Covers.mono (hv : ∀ w y, st.vals w = some y → st'.vals w = some y) : ∀ {ws ts}, Covers G st ws ts → Covers G st' ws ts
  | [], [], _ => trivial
  | _ :: _, _ :: _, ⟨⟨k, A, h, hu⟩, hr⟩ => ⟨⟨k, A, hv _ _ h, hu⟩, hr.mono hv⟩
  | [], _ :: _, h => h.elim
  | _ :: _, [], h => h.elim

theorem Covers.append : ∀ {ws ws' ts ts'}, Covers G st ws ts → Covers G st ws' ts' → Covers G st (ws ++ ws') (ts ++ ts')
  | [], _, [], _, _, h => h
  | _ :: _, _, _ :: _, _, ⟨h, hr⟩, h' => ⟨h, hr.append h'⟩
  | [], _, _ :: _, _, h, _ => h.elim
  | _ :: _, _, [], _, h, _ => h.elim

theorem Covers.show (hI : Inv st P G) : ∀ {ws ts}, Covers G st ws ts → AllShow st ws ts
  | [], [], _ => trivial
  | _ :: _, _ :: _, ⟨⟨_, _, h, hu⟩, hr⟩ => ⟨hI.shows h hu, hr.show hI⟩
  | [], _ :: _, h => h.elim
  | _ :: _, [], h => h.elim

theorem AllShow.length : ∀ {ws ts}, AllShow st ws ts → ws.length = ts.length
  | [], [], _ => rfl
  | _ :: _, _ :: _, ⟨_, hr⟩ => by simp [hr.length]
  | [], _ :: _, h => h.elim
  | _ :: _, [], h => h.elim

theorem Unchanged.keeps (hu : Unchanged st st') (ho : StOK st) : ∀ w y, st.vals w = some y → st'.vals w = some y :=
  fun w y h => by rw [hu.1.vals w (ho.val_lt h) id]; exact h

mutual
theorem visit_run : ∀ (F : Nat) {t : Json} {a w : Addr} {st : St}, Ready st P G w (some a) A → Unf G a t → 2 * t.all.length ≤ F →
    ∃ ws st', visit F w st = .ok (ws, st') ∧ Covers G st' ws t.all ∧ Unchanged st st' ∧ Ready st' P G w (some a) A
  | 0, t, a, w, st, h, hu, hF => by rw [all_eq] at hF; simp at hF
  | F + 1, t, a, w, st, h, hu, hF => by
    rw [all_eq] at hF ⊢
    simp only [List.length_cons] at hF
    obtain ⟨gn, ha, hv⟩ : ∃ gn, G a = some gn ∧ UnfV G gn.val t := hu.split
    obtain ⟨o, hi, hc⟩ := hv.items
    have hb := begin_run h.inv h.val ha
    unfold visit
    cases hk : gn.val.kids with
    | nil =>
      rw [hk] at hb hi
      generalize hm : t.items = ms at hi hF ⊢
      cases hi
      refine ⟨[w], st, ?_, ⟨⟨a, A, h.val, hu⟩, trivial⟩, ⟨.refl _, rfl⟩, h⟩
      mstep (show begin_ w st = .ok (none, st) from hb)
      obtain ⟨F, rfl⟩ : ∃ f, F = f + 1 := ⟨F - 1, by omega⟩
      rfl
    | cons k r =>
      rw [hk] at hb hi
      have hcon : gn.val = .con o ([] ++ k :: r) := by
        have : gn.val.isCon = true := by
          cases hv : gn.val with
          | con => rfl
          | _ => rw [hv] at hk; cases hk
        rw [hc this, hk]; rfl
      obtain ⟨gk, hgk⟩ : ∃ gk, G k = some gk := by
        obtain ⟨gk, _, h1, _⟩ := hi.mem (k := k) (by simp)
        exact ⟨gk, h1⟩
      obtain ⟨_, h2, h3⟩ := h.addV hgk
      obtain ⟨ws, st', h4, h5, h6, h7⟩ := along_run F h2 ha hcon hi (by omega) (q := some st.nv)
        ⟨st.nv, rfl, by simp [St.addV, upd]⟩
      refine ⟨w :: ws, st', ?_, ⟨⟨a, A, h7.val, hu⟩, h5⟩, h3.trans h6, h7⟩
      mstep (show begin_ w st = .ok (some st.nv, st.addV A (some k)) from hb)
      mstep h4
      rfl
theorem along_run : ∀ (F : Nat) {ms : List (Bytes × Json)} {r l : List Addr} {v : Addr} {x : Option Addr} {f : Addr} {gf : GNode}
    {o : Bool} {st : St} {q : Option Addr}, Ready st P G v x A → G f = some gf →
    gf.val = .con o (l ++ r) → UnfI G o r ms → 2 * (allI ms).length + 1 ≤ F →
    (match r with | [] => q = none | k :: _ => ∃ w, q = some w ∧ st.vals w = some ⟨some k, A⟩) →
    ∃ ws st', along F q st = .ok (ws, st') ∧ Covers G st' ws (allI ms) ∧ Unchanged st st' ∧ Ready st' P G v x A
  | 0, _, _, _, _, _, _, _, _, _, _, _, _, _, _, hF, _ => by omega
  | F + 1, ms, r, l, v, x, f, gf, o, st, q, h, hf, hg, hi, hF, hq => by
    cases hi with
    | nil =>
      obtain rfl : q = none := hq
      exact ⟨[], st, rfl, trivial, ⟨.refl _, rfl⟩, h⟩
    | @cons _ k r gk key t ms hk hkey hu hr =>
      obtain ⟨w, rfl, hw⟩ := hq
      have hlen : (allI ((key, t) :: ms)) = t.all ++ allI ms := by simp [allI]
      have hpos : 0 < t.all.length := by rw [all_eq]; simp
      rw [hlen] at hF ⊢
      simp only [List.length_append] at hF
      have hRw : Ready st P G w (some k) A := ⟨h.inv, h.cok, hw, fun c hc => by cases hc; simp [hk]⟩
      obtain ⟨ws1, st1, a1, a2, a3, a4⟩ := visit_run F hRw hu (by omega)
      have hR1 : Ready st1 P G v x A := h.unchanged a3 a4.inv.ok
      have hn := next_run a4.inv a4.val hf hg
      unfold along
      cases hr with
      | nil =>
        refine ⟨ws1 ++ [], st1, ?_, a2.append (by trivial), a3, hR1⟩
        mstep a1
        mstep (show next_ w st1 = .ok (none, st1) from hn)
        obtain ⟨F, rfl⟩ : ∃ f, F = f + 1 := ⟨F - 1, by omega⟩
        rfl
      | @cons _ k' r' gk' key' t' ms' hk' hkey' hu' hr' =>
        obtain ⟨_, b2, b3⟩ := hR1.addV hk'
        obtain ⟨ws2, st2, c1, c2, c3, c4⟩ := along_run F b2 hf (l := l ++ [k]) (by rw [hg]; simp)
          (UnfI.cons hk' hkey' hu' hr') (by omega) (q := some st1.nv) ⟨st1.nv, rfl, by simp [St.addV, upd]⟩
        refine ⟨ws1 ++ ws2, st2, ?_, (a2.mono ((b3.trans c3).keeps a4.inv.ok)).append c2, a3.trans (b3.trans c3), c4⟩
        mstep a1
        mstep (show next_ w st1 = .ok (some st1.nv, st1.addV A (some k')) from hn)
        mstep c1
        rfl
end

/-- C74. Visiting every value of a document by `zj_Begin` and `zj_Next` takes at most seven steps for
each; the handles show the values, each once and in the order of the text; nothing is changed. -/
theorem C74_visit (h : Ready st P G v x A) (hs : Shows st v t) {F : Nat} (hF : 2 * t.all.length ≤ F) :
    ∃ ws k st', visitT F v st = .ok ((ws, k), st') ∧ k ≤ 7 * t.all.length ∧ AllShow st' ws t.all ∧
      Unchanged st st' ∧ Ready st' P G v x A := by
  obtain ⟨a, gn, rfl, ha, hu⟩ := h.node_of hs
  obtain ⟨ws, st', h1, h2, h3, h4⟩ := visit_run F h (.mk ha hu) hF
  obtain ⟨k, e⟩ := TM.of_val (visitT_val F v) h1
  have hsh := h2.show h4.inv
  have hle : k + 3 ≤ 7 * ws.length := visitT_le F v st _ _ _ e
  rw [hsh.length] at hle
  exact ⟨ws, k, st', e, by omega, hsh, h3, h4⟩

/-! ### By index -/

theorem TM.bind_ok' {α β : Type} {x : TM α} {f : α → TM β} {st st1 st2 : St} {a : α} {b : β} {m n : Nat}
    (h : x st = .ok ((a, m), st1)) (hf : f a st1 = .ok ((b, n), st2)) : (x >>= f) st = .ok ((b, m + n), st2) := by
  simp only [bind, h, hf]

theorem arrayGetLoopT_exact {index : Nat} : ∀ (ks : List Addr) {pv : Option Addr} (i fuel : Nat),
    Seg st G pv ks none → i ≤ index → index < i + ks.length →
    Run (arrayGetLoopT index fuel i (hdOr ks none)) st fun r k st' => k = index - i ∧ r = ks[index - i]? ∧ st' = st
  | ks, _, _, 0, _, _, _ => fun _ _ _ e => by cases ks <;> cases e
  | [], _, _, _ + 1, _, h1, h2 => by simp at h2; omega
  | k :: ks, _, i, fuel + 1, ⟨⟨n, gk, h1, h2, h3, _⟩, hs⟩, hi, hl => by
    simp only [hdOr_cons]
    unfold arrayGetLoopT
    by_cases he : i = index
    · subst he
      rw [if_pos rfl]
      exact Run.pure ⟨by simp, by simp, rfl⟩
    · rw [if_neg he]
      refine Run.one (nNext_run h1 h3) ?_
      refine (arrayGetLoopT_exact ks (i + 1) fuel hs (by omega) (by simp at hl; omega)).mono fun r m s h => ?_
      refine ⟨by omega, ?_, h.2.2⟩
      rw [h.2.1, show index - i = (index - (i + 1)) + 1 by omega, List.getElem?_cons_succ]

theorem arrayGetT_exact (h : Ready st P G v x A) {ts : List Json} (hs : Shows st v (.arr ts)) {fuel i : Nat} (hi : i < ts.length) :
    Run (arrayGetT fuel v i) st fun _ k _ => k = i + 4 := by
  obtain ⟨a, gn, rfl, ha, hu⟩ := h.node_of hs
  obtain ⟨ks, hg, hI⟩ := hu.arr_inv
  obtain ⟨nd, h1, h2, _⟩ := h.inv.con ha hg
  have hl : ks.length = ts.length := by rw [hI.length]; simp
  unfold arrayGetT
  refine Run.one (rdVal_run h.val) ?_
  simp only
  refine Run.one (h.inv.nType ha) ?_
  rw [hg]
  simp only [GVal.type, conType, Bool.false_eq_true, if_false, ne_eq, not_true]
  refine Run.one (nNode_run h1 h2.value) ?_
  refine Run.bind (arrayGetLoopT_exact ks 0 fuel h2.seg (by omega) (by omega)) fun r m s hm => ?_
  obtain ⟨rfl, rfl, rfl⟩ := hm
  rw [List.getElem?_eq_getElem (by omega)]
  simp only
  refine Run.one (newVal_run h.alloc) ?_
  exact Run.pure (by omega)

/-- The sum of the numbers from `i` to `i + n - 1`. -/
def sumFrom (i : Nat) : Nat → Nat
  | 0 => 0
  | n + 1 => i + sumFrom (i + 1) n

theorem sumFrom_eq : ∀ (n i : Nat), 2 * sumFrom i n + n = n * (n + 2 * i)
  | 0, i => by simp [sumFrom]
  | n + 1, i => by
    have := sumFrom_eq n (i + 1)
    simp only [sumFrom]
    have e : (n + 1) * (n + 1 + 2 * i) = n * (n + 2 * (i + 1)) + 2 * i + 1 := by
      simp only [Nat.mul_add, Nat.add_mul]; omega
    omega

theorem byIndex_run : ∀ (n : Nat) {i : Nat} {st : St} {ts : List Json}, Ready st P G v x A → Shows st v (.arr ts) →
    i + n = ts.length → ∀ {F : Nat}, ts.length < F →
    ∃ ws st', byIndexT F v n i st = .ok ((ws.map some, sumFrom i n + 4 * n), st') ∧ Covers G st' ws (ts.drop i) ∧
      Unchanged st st' ∧ Ready st' P G v x A
  | 0, i, st, ts, h, hs, hi, F, hF => by
    refine ⟨[], st, rfl, ?_, ⟨.refl _, rfl⟩, h⟩
    rw [List.drop_of_length_le (by omega)]
    trivial
  | n + 1, i, st, ts, h, hs, hi, F, hF => by
    have hlt : i < ts.length := by omega
    rcases C26_arrayGet h hs hF i with ⟨h1, _⟩ | ⟨u, w, k, st1, h1, h2, h3, h4, h5, h6, _⟩
    · rw [List.getElem?_eq_getElem hlt] at h1; cases h1
    · obtain ⟨m, e⟩ := TM.of_val (arrayGetT_val F v i) h2
      have hm : m = i + 4 := arrayGetT_exact h hs hlt _ _ _ e
      subst hm
      have hs1 : Shows st1 v (.arr ts) := by
        obtain ⟨a, gn, rfl, ha, hu⟩ := h.node_of hs
        exact h6.shows (.mk ha hu)
      obtain ⟨ws, st', g1, g2, g3, g4⟩ := byIndex_run n h6 hs1 (i := i + 1) (by omega) hF
      refine ⟨w :: ws, st', ?_, ?_, h3.trans g3, g4⟩
      · unfold byIndexT
        refine (TM.bind_ok' e (TM.bind_ok' g1 rfl)).trans ?_
        simp only [List.map_cons, sumFrom, Res.ok.injEq, Prod.mk.injEq, true_and, and_true]
        omega
      · rw [List.drop_eq_getElem_cons hlt]
        have hu : u = ts[i] := by rw [List.getElem?_eq_getElem hlt] at h1; cases h1; rfl
        subst hu
        obtain ⟨a, gn, ha, hg, hu⟩ := h5.node_of h4
        cases ha
        exact ⟨⟨k, A, g3.keeps h6.inv.ok _ _ h5.val, .mk hg hu⟩, g2⟩

/-- C74, reading an array of `n` elements by its indices takes exactly `n (n - 1) / 2 + 4 n` steps: the time
grows with the square of the length. -/
theorem C74_index (h : Ready st P G v x A) {ts : List Json} (hs : Shows st v (.arr ts)) {F : Nat} (hF : ts.length < F) :
    ∃ ws k st', byIndexT F v ts.length 0 st = .ok ((ws.map some, k), st') ∧ 2 * k = ts.length * (ts.length + 7) ∧
      AllShow st' ws ts ∧ Unchanged st st' := by
  obtain ⟨ws, st', h1, h2, h3, h4⟩ := byIndex_run ts.length h hs (i := 0) (by omega) hF
  refine ⟨ws, _, st', h1, ?_, by simpa using h2.show h4.inv, h3⟩
  have := sumFrom_eq ts.length 0
  have e : ts.length * (ts.length + 7) = ts.length * ts.length + 7 * ts.length := by rw [Nat.mul_add]; omega
  simp only [Nat.mul_zero, Nat.add_zero] at this
  omega

end

/-- Run: the values of a document and the steps; an array of five by index. -/
def tourOf (b : Bytes) : Res (List Bytes × Nat) :=
  ((do
    let (v, _) ← make 0 b
    let (ws, k) ← visitT 99 v
    let ps ← ws.mapM fun w => stringify 99 w
    let ts ← ps.mapM fun p => readN p 1
    return (ts, k) : M _) (start fun _ => 3)).out

example : tourOf b!"[{\"a\":1,\"b\":[2]},true]" = .ok ([b!"[", b!"{", b!"1", b!"[", b!"2", b!"t"], 30) := by decide +kernel

example : ((do
    let (v, _) ← make 0 b!"[1,2,3,4,5]"
    let (ws, k) ← byIndexT 99 v 5 0
    return (ws, k) : M _) (start fun _ => 3)).out = .ok ([some 2, some 3, some 4, some 5, some 6], 30) := by decide +kernel

/-- Documents the hypotheses of C74 hold for. -/
example : ∃ st P G v a, Ready st P G v (some a) 0 ∧ Shows st v (.arr [.null, .arr [.bool true], .obj []]) ∧
    (Json.arr [.null, .arr [.bool true], .obj []]).all.length = 5 := by
  obtain ⟨st, P, G, v, a, h, _⟩ := exists_example (t := .arr [.null, .arr [.bool true], .obj []])
    (by simp [Json.Valid, Json.ValidElems, Json.ValidMembers]) (fun _ => 0)
  exact ⟨st, P, G, v, a, h.ready, h.ready.shows h.doc, rfl⟩

end ZJ
