import Verif.PropPrint

/-
Property theorems about the getters and about finding children: C20, C24-C27.
The results are described in terms of the document `t` the handle shows.
-/

set_option linter.unusedSimpArgs false

namespace ZJ

/-- The type of a document. -/
def Json.type : Json → JType
  | .null => .null
  | .bool _ => .bool
  | .num _ => .number
  | .str _ => .string
  | .arr _ => .array
  | .obj _ => .object

/-- The children of a document with their keys (empty for elements of an array). -/
def Json.items : Json → List (Bytes × Json)
  | .arr xs => xs.map fun x => ([], x)
  | .obj ms => ms
  | _ => []

/-- The truth value, of a boolean. -/
def Json.asBool : Json → Option Bool
  | .bool b => some b
  | _ => none

def Json.isNull : Json → Bool
  | .null => true
  | _ => false

section
variable {st st' : St} {P : Addr → Prop} {G : Graph} {v w A B a : Addr} {x y : Option Addr} {p q : SPtr} {b s : Bytes}
  {t : Json}

/-! ### The store behind a handle -/

/-- The node of a handle that shows `t`. -/
theorem Ready.node_of (h : Ready st P G v x A) (hs : Shows st v t) :
    ∃ a gn, x = some a ∧ G a = some gn ∧ UnfV G gn.val t := by
  obtain ⟨a, A', h1, hm⟩ := hs
  obtain rfl : x = some a := by
    have := h.val; rw [h1] at this; cases this; rfl
  obtain ⟨hg, hu⟩ := h.unf ⟨a, A', h1, hm⟩
  exact ⟨a, _, rfl, hg, hu⟩

theorem UnfV.type {gv} (h : UnfV G gv t) : gv.type = t.type := by
  cases h with
  | scalar hs => cases gv <;> first | rfl | cases hs
  | con h => rename_i o ks xs; cases o <;> rfl

theorem UnfV.eq_null {gv} (h : UnfV G gv t) : gv = .null ↔ t = .null := by
  cases h with
  | scalar hs => cases gv <;> first | cases hs; done | simp [GVal.doc]
  | con h => rename_i o ks xs; cases o <;> simp [mkCon]

theorem UnfV.bool_inv {gv} (h : UnfV G gv t) : (∀ b, gv = .bool b → t = .bool b) ∧ (∀ b, t = .bool b → gv = .bool b) := by
  cases h with
  | scalar hs => cases gv <;> first | (cases hs; done) | simp [GVal.doc]
  | con h => rename_i o ks xs; cases o <;> simp [mkCon]

theorem UnfV.str_inv {gv} (h : UnfV G gv (.str s)) : gv = .str s := by
  generalize ht : Json.str s = t at h
  cases h with
  | scalar hs => cases gv <;> first | (cases hs; done) | (cases ht; done) | (cases ht; rfl)
  | con h => rename_i o ks xs; cases o <;> cases ht

theorem UnfV.num_inv {gv} (h : UnfV G gv (.num s)) : gv = .num s := by
  generalize ht : Json.num s = t at h
  cases h with
  | scalar hs => cases gv <;> first | (cases hs; done) | (cases ht; done) | (cases ht; rfl)
  | con h => rename_i o ks xs; cases o <;> cases ht

theorem UnfI.array_keys : ∀ {ks xs}, UnfI G false ks xs → xs = (xs.map (·.2)).map fun x => ([], x)
  | _, _, .nil => rfl
  | _, _, .cons _ hk _ hr => by
    simp only [List.map_cons]
    rw [← UnfI.array_keys hr, hk.2]

theorem UnfV.items {gv} (h : UnfV G gv t) : ∃ o, UnfI G o gv.kids t.items ∧ (gv.isCon = true → gv = .con o gv.kids) := by
  cases h with
  | scalar hs => cases gv <;> first | exact ⟨true, .nil, fun h => by cases h⟩ | cases hs
  | con h =>
    rename_i o ks xs
    refine ⟨o, ?_, fun _ => rfl⟩
    cases o with
    | true => exact h
    | false =>
      show UnfI G false ks ((xs.map (·.2)).map fun x => ([], x))
      rw [← h.array_keys]; exact h

theorem UnfV.arr_inv {gv} {ts : List Json} (h : UnfV G gv (.arr ts)) :
    ∃ ks, gv = .con false ks ∧ UnfI G false ks (ts.map fun x => ([], x)) := by
  have hty := h.type
  cases gv with
  | con o ks =>
    cases o with
    | true => cases hty
    | false =>
      obtain ⟨o, h1, h2⟩ := h.items
      have := h2 rfl
      cases this
      exact ⟨ks, rfl, h1⟩
  | _ => cases hty

theorem UnfV.obj_inv {gv} {ms : List (Bytes × Json)} (h : UnfV G gv (.obj ms)) :
    ∃ ks, gv = .con true ks ∧ UnfI G true ks ms := by
  have hty := h.type
  cases gv with
  | con o ks =>
    cases o with
    | false => cases hty
    | true =>
      obtain ⟨o, h1, h2⟩ := h.items
      have := h2 rfl
      cases this
      exact ⟨ks, rfl, h1⟩
  | _ => cases hty

/-- The child at a position. -/
theorem UnfI.at : ∀ {o ks xs} (_ : UnfI G o ks xs) (i : Nat),
    (ks[i]? = none ∧ xs[i]? = none) ∨
    ∃ k gk key t, ks[i]? = some k ∧ xs[i]? = some (key, t) ∧ G k = some gk ∧ KeyIs o gk.key key ∧ Unf G k t
  | _, _, _, .nil, _ => .inl ⟨by simp, by simp⟩
  | _, _, _, .cons hk hkey hu hr, 0 => .inr ⟨_, _, _, _, rfl, rfl, hk, hkey, hu⟩
  | _, _, _, .cons _ _ _ hr, i + 1 => by
    simp only [List.getElem?_cons_succ]
    exact hr.at i

/-- A new handle on a node of the store. -/
theorem Ready.addV (h : Ready st P G v x A) {k : Addr} {gk} (hk : G k = some gk) :
    Ready (st.addV A (some k)) P G st.nv (some k) A ∧ Ready (st.addV A (some k)) P G v x A ∧
    Unchanged st (st.addV A (some k)) := by
  have hu : Unchanged st (st.addV A (some k)) := unch_addV
  have ho : StOK (st.addV A (some k)) := h.inv.ok.addV h.alloc
  refine ⟨⟨h.inv.unchanged hu ho, h.cok.frame h.inv.ok hu.1 rfl, by simp [St.addV, upd], ?_⟩, h.unchanged hu ho, hu⟩
  intro c hc; cases hc; simp [hk]

/-- A new block of the library. -/
theorem Ready.addB (h : Ready st P G v x A) {d : Bytes} {sz : Nat} (hs : d.length ≤ sz) :
    Ready (st.addB A sz d) P G v x A ∧ Unchanged st (st.addB A sz d) :=
  ⟨h.unchanged addB_frame (addB_ok h.inv.ok hs), addB_frame⟩

theorem holds_addB {d : Bytes} {sz : Nat} : HoldsText (st.addB A sz (d ++ [0])) (.buf st.nb 0) d :=
  ⟨st.nb, _, rfl, by simp [St.addB]; rfl, rfl⟩

/-! ### C20: getters return the value, or null for another type -/

/-- C20. `zj_Type`, `zj_IsNull`, `zj_GetBool`, `zj_SizeOf` say what the document is. -/
theorem C20_inspect (h : Ready st P G v x A) (hs : Shows st v t) :
    getType v st = .ok (some t.type, st) ∧ isNull v st = .ok (t.isNull, st) ∧
    getBool v st = .ok (t.asBool, st) ∧
    sizeOf v st = .ok (t.items.length, st) := by
  obtain ⟨a, gn, rfl, ha, hu⟩ := h.node_of hs
  refine ⟨?_, ?_, ?_, ?_⟩
  · rw [getType_run h.inv h.val ha, hu.type]
  · rw [isNull_run h.inv h.val ha]
    congr 2
    have := hu.eq_null
    cases t <;> simp_all [Json.isNull]
  · rw [getBool_run h.inv h.val ha]
    congr 2
    obtain ⟨g1, g2⟩ := hu.bool_inv
    cases hv : gn.val with
    | bool b => rw [g1 b hv]; rfl
    | _ =>
      cases t with
      | bool b => rw [hv] at g2; cases g2 b rfl
      | _ => rfl
  · rw [sizeOf_run h.inv h.val ha]
    obtain ⟨o, hi, _⟩ := hu.items
    rw [hi.length]

/-- C20, strings. `zj_GetStr` returns a new C string with the raw text, `zj_GetStrFast` the
address of the stored text with its length. -/
theorem C20_getStr (h : Ready st P G v x A) (hs : Shows st v (.str s)) :
    (∃ p st', getStr v st = .ok (some p, st') ∧ HoldsText st' p s ∧ Unchanged st st' ∧ Ready st' P G v x A) ∧
    (∃ p, getStrFast v st = .ok (some (p, s.length), st) ∧ Points st p s) := by
  obtain ⟨a, gn, rfl, ha, hu⟩ := h.node_of hs
  have hg := hu.str_inv
  obtain ⟨p, h1, h2⟩ := getStrFast_run h.inv h.val ha hg
  obtain ⟨h3, h4⟩ := h.addB (d := s ++ [0]) (sz := s.length + 1) (by simp)
  exact ⟨⟨_, _, getStr_run h.inv h.val ha hg, holds_addB, h4, h3⟩, p, h1, h2.points⟩

/-- C20, numbers: the text of the number. -/
theorem C20_getNumStr (h : Ready st P G v x A) (hs : Shows st v (.num s)) :
    (∃ p st', getNumStr v st = .ok (some p, st') ∧ HoldsText st' p s ∧ Unchanged st st' ∧ Ready st' P G v x A) ∧
    (∃ p, getNumFast v st = .ok (some (p, s.length), st) ∧ Points st p s) := by
  obtain ⟨a, gn, rfl, ha, hu⟩ := h.node_of hs
  have hg := hu.num_inv
  obtain ⟨p, h1, h2⟩ := getNumFast_run h.inv h.val ha hg
  obtain ⟨h3, h4⟩ := h.addB (d := s ++ [0]) (sz := s.length + 1) (by simp)
  exact ⟨⟨_, _, getNumStr_run h.inv h.val ha hg, holds_addB, h4, h3⟩, p, h1, h2.points⟩

/-- C20, wrong type: every getter of another type returns null and touches nothing. -/
theorem C20_wrong_type {D} {fp : FP D} (h : Ready st P G v x A) (hs : Shows st v t) :
    (t.type ≠ .string → getStr v st = .ok (none, st) ∧ getStrFast v st = .ok (none, st) ∧
      getUnEscapeStr v st = .ok (none, st)) ∧
    (t.type ≠ .number → getNumStr v st = .ok (none, st) ∧ getNumFast v st = .ok (none, st) ∧
      getInt v st = .ok (none, st) ∧ getLong v st = .ok (none, st) ∧ getLongLong v st = .ok (none, st) ∧
      getDouble fp v st = .ok (none, st)) ∧
    (t.type ≠ .bool → getBool v st = .ok (none, st)) ∧
    (t.type ≠ .object → ∀ fuel p n, objGet fuel v p st = .ok (none, st) ∧ objGetLen fuel v p n st = .ok (none, st)) ∧
    (t.type ≠ .array → ∀ fuel i, arrayGet fuel v i st = .ok (none, st)) ∧
    (t.type ≠ .object → t.type ≠ .array → sizeOf v st = .ok (0, st) ∧ begin_ v st = .ok (none, st)) := by
  obtain ⟨a, gn, rfl, ha, hu⟩ := h.node_of hs
  have hty := hu.type
  refine ⟨fun hn => getStr_other h.inv h.val ha (by rw [hty]; exact hn),
    fun hn => getNum_other h.inv h.val ha (by rw [hty]; exact hn), fun hn => ?_, fun hn fuel p n => ?_,
    fun hn fuel i => ?_, fun hn hn' => ?_⟩
  · rw [(C20_inspect h hs).2.2.1]
    cases t <;> first | rfl | exact absurd rfl hn
  · exact objGet_other h.inv h.val ha (fun ks hg => by rw [hg] at hty; exact hn hty.symm)
  · exact arrayGet_other h.inv h.val ha (fun ks hg => by rw [hg] at hty; exact hn hty.symm)
  · have : gn.val.isCon = false := by
      cases hv : gn.val with
      | con o ks =>
        rw [hv] at hty
        cases o
        · exact absurd hty.symm hn'
        · exact absurd hty.symm hn
      | _ => rfl
    have hk : gn.val.kids = [] := by
      cases hv : gn.val with
      | con o ks => rw [hv] at this; cases this
      | _ => rfl
    refine ⟨?_, ?_⟩
    · rw [sizeOf_run h.inv h.val ha, hk]; rfl
    · rw [begin_run h.inv h.val ha, hk]; rfl

/-- C20, the empty handle: null from every getter. -/
theorem C20_empty {D} {fp : FP D} (h : Ready st P G v none A) :
    getType v st = .ok (none, st) ∧ isNull v st = .ok (false, st) ∧ getBool v st = .ok (none, st) ∧
    sizeOf v st = .ok (0, st) ∧
    getStr v st = .ok (none, st) ∧ getStrFast v st = .ok (none, st) ∧ getUnEscapeStr v st = .ok (none, st) ∧
    getNumStr v st = .ok (none, st) ∧ getNumFast v st = .ok (none, st) ∧
    getInt v st = .ok (none, st) ∧ getLong v st = .ok (none, st) ∧ getLongLong v st = .ok (none, st) ∧
    getDouble fp v st = .ok (none, st) ∧
    getKey v st = .ok (none, st) ∧ getKeyFast v st = .ok (none, st) ∧ getUnEscapeKey v st = .ok (none, st) ∧
    begin_ v st = .ok (none, st) ∧ next_ v st = .ok (none, st) ∧
    (∀ fuel i, arrayGet fuel v i st = .ok (none, st)) ∧
    (∀ fuel p n, objGet fuel v p st = .ok (none, st) ∧ objGetLen fuel v p n st = .ok (none, st)) := by
  obtain ⟨h1, h2, h3, h4, h5, h6, h7, h8, h9, h10, h11, h12, h13, h14⟩ := get_empty (fp := fp) h.val
  exact ⟨getType_empty h.val, h11, h10, sizeOf_empty h.val, h1, h2, h3, h4, h5, h6, h7, h8, h9, h12, h13, h14,
    begin_empty h.val, next_empty h.val, fun _ _ => arrayGet_empty h.val, fun _ _ _ => objGet_empty h.val⟩

/-- A string, asked for everything else; and an empty handle. -/
example : ((do
    let (v, _) ← make 0 b!"\"true\""
    return [(← getNumStr v).isSome, (← getInt v).isSome, (← getBool v).isSome, ← isNull v, (← sizeOf v) != 0,
      (← arrayGet 9 v 0).isSome, (← objGet 9 v (.lit { bytes := [] })).isSome, (← getBool 0).isSome] : M _) (start fun _ => 0)).out
    = .ok [false, false, false, false, false, false, false, false] := by decide +kernel

example : ∃ st P G v a, Ready st P G v (some a) 0 ∧ Shows st v (.str b!"true") ∧ Ready st P G 0 none 0 := by
  obtain ⟨st, P, G, v, a, h, h0⟩ := exists_example (t := .str b!"true")
    (by repeat (first | exact .nil | refine .plain (by decide) (by decide) (by decide) ?_)) (fun _ => 0)
  exact ⟨st, P, G, v, a, h.ready, h.ready.shows h.doc, h.inv, h.cok, h0, fun _ h => by cases h⟩

/-! ### C24: SizeOf counts the children -/

/-- C24. `zj_SizeOf` is the number of children of the document, which is the number of
elements Begin/Next enumerates (C25) and Stringify prints (C09); 0 for scalars. -/
theorem C24_sizeOf (h : Ready st P G v x A) (hs : Shows st v t) : sizeOf v st = .ok (t.items.length, st) :=
  (C20_inspect h hs).2.2.2

/-! ### C25: Begin and Next enumerate the children in order -/

/-- The user's loop `for (w = zj_Begin(v); w != 0; w = zj_Next(w))`, collecting the handles. -/
def collect : Nat → Option Addr → M (List Addr)
  | 0, _ => lift .timeout
  | _ + 1, none => pure []
  | fuel + 1, some w => do
    let r ← collect fuel (← next_ w)
    return w :: r

def children (fuel : Nat) (v : Addr) : M (List Addr) := do collect fuel (← begin_ v)

/-- The handle `w` is on the node `k`. -/
def On (st : St) (w k : Addr) : Prop := ∃ A, st.vals w = some ⟨some k, A⟩

/-- The handles in `ws` are on the nodes `ks`, in order. -/
def AllOn (st : St) : List Addr → List Addr → Prop
  | [], [] => True
  | w :: ws, k :: ks => On st w k ∧ AllOn st ws ks
  | _, _ => False

theorem AllOn.mono (hv : ∀ w y, st.vals w = some y → st'.vals w = some y) : ∀ {ws ks}, AllOn st ws ks → AllOn st' ws ks
  | [], [], _ => trivial
  | _ :: _, _ :: _, ⟨⟨A, h⟩, hr⟩ => ⟨⟨A, hv _ _ h⟩, AllOn.mono hv hr⟩
  | [], _ :: _, h => h.elim
  | _ :: _, [], h => h.elim

theorem AllOn.length : ∀ {ws ks}, AllOn st ws ks → ws.length = ks.length
  | [], [], _ => rfl
  | _ :: _, _ :: _, ⟨_, hr⟩ => by simp [AllOn.length hr]
  | [], _ :: _, h => h.elim
  | _ :: _, [], h => h.elim

theorem AllOn.get : ∀ {ws ks : List Nat}, AllOn st ws ks → ∀ {i w : Nat}, ws[i]? = some w → ∃ k, ks[i]? = some k ∧ On st w k
  | [], [], _, i, w, h => by simp at h
  | _ :: _, k :: _, ⟨h, hr⟩, 0, w, hw => by cases hw; exact ⟨k, rfl, h⟩
  | _ :: _, _ :: _, ⟨_, hr⟩, i + 1, w, hw => by
    simp only [List.getElem?_cons_succ] at hw ⊢
    exact hr.get hw
  | [], _ :: _, h, _, _, _ => h.elim
  | _ :: _, [], h, _, _, _ => h.elim

/-- The loop from the handle on the first of the remaining children `r`. -/
theorem collect_run {f gf o} : ∀ (r : List Addr) (l : List Addr) {st : St}, Ready st P G v x A → G f = some gf →
    gf.val = .con o (l ++ r) → ∀ {fuel : Nat} {q : Option Addr}, r.length < fuel →
    (match r with | [] => q = none | k :: _ => ∃ w, q = some w ∧ st.vals w = some ⟨some k, A⟩) →
    ∃ ws st', collect fuel q st = .ok (ws, st') ∧ AllOn st' ws r ∧ Unchanged st st' ∧ Ready st' P G v x A
  | [], l, st, h, hf, hg, fuel, q, hfu, hq => by
    obtain rfl : q = none := hq
    cases fuel with
    | zero => exact absurd hfu (by simp)
    | succ fuel => exact ⟨[], st, rfl, trivial, ⟨.refl _, rfl⟩, h⟩
  | k :: r, l, st, h, hf, hg, fuel, q, hfu, hq => by
    obtain ⟨w, rfl, hw⟩ := hq
    cases fuel with
    | zero => exact absurd hfu (by simp)
    | succ fuel =>
      have hn := next_run h.inv hw hf hg
      have hlen : r.length < fuel := by simp only [List.length_cons] at hfu; omega
      cases r with
      | nil =>
        refine ⟨[w], st, ?_, ⟨⟨A, hw⟩, trivial⟩, ⟨.refl _, rfl⟩, h⟩
        unfold collect
        mstep (show next_ w st = .ok (none, st) from hn)
        cases fuel with
        | zero => exact absurd hlen (by simp)
        | succ fuel => rfl
      | cons k' r' =>
        have hk' : ∃ gk, G k' = some gk := by
          obtain ⟨n, hn', hok⟩ := h.inv.rep f gf hf
          have hv := hok.val
          rw [hg] at hv
          have hv : ConOK st G f n o _ gf.endOK := hv
          obtain ⟨gk, h1, _⟩ := hv.kid k' (by simp)
          exact ⟨gk, h1⟩
        obtain ⟨gk', hk'⟩ := hk'
        obtain ⟨_, h2, h3⟩ := h.addV hk'
        obtain ⟨ws, st', h4, h5, h6, h7⟩ := collect_run (k' :: r') (l ++ [k]) h2 hf (o := o) (by rw [hg]; simp) (fuel := fuel)
          (q := some st.nv) hlen ⟨st.nv, rfl, by simp [St.addV, upd]⟩
        refine ⟨w :: ws, st', ?_, ⟨⟨A, ?_⟩, h5⟩, h3.trans h6, h7⟩
        · unfold collect
          mstep (show next_ w st = .ok (some st.nv, st.addV A (some k')) from hn)
          mstep h4
          rfl
        · have hlt := h.inv.ok.val_lt hw
          rw [(h3.trans h6).1.vals w hlt id]
          exact hw

/-- C25. The loop over Begin/Next visits exactly the children of the document, each once,
in document order: the `i`-th handle it collects shows the `i`-th child and is on the
`i`-th node of the chain, and nothing that existed is changed. -/
theorem C25_children (h : Ready st P G v x A) (hs : Shows st v t) {fuel : Nat} (hf : t.items.length < fuel) :
    ∃ ws st', children fuel v st = .ok (ws, st') ∧ Unchanged st st' ∧ Ready st' P G v x A ∧
      ws.length = t.items.length ∧
      ∀ (i w : Nat), ws[i]? = some w → ∃ key u, t.items[i]? = some (key, u) ∧ Shows st' w u ∧
        ∃ a gn k, x = some a ∧ G a = some gn ∧ gn.val.kids[i]? = some k ∧ On st' w k := by
  obtain ⟨a, gn, rfl, ha, hu⟩ := h.node_of hs
  obtain ⟨o, hi, hc⟩ := hu.items
  have hb := begin_run h.inv h.val ha
  have main : ∃ ws st', children fuel v st = .ok (ws, st') ∧ AllOn st' ws gn.val.kids ∧ Unchanged st st' ∧
      Ready st' P G v (some a) A := by
    unfold children
    cases hk : gn.val.kids with
    | nil =>
      rw [hk] at hb
      refine ⟨[], st, ?_, trivial, ⟨.refl _, rfl⟩, h⟩
      mstep (show begin_ v st = .ok (none, st) from hb)
      cases fuel with
      | zero => exact absurd hf (by simp)
      | succ fuel => rfl
    | cons k r =>
      rw [hk] at hb
      have hcon : gn.val = .con o ([] ++ k :: r) := by
        have : gn.val.isCon = true := by
          cases hv : gn.val with
          | con => rfl
          | _ => rw [hv] at hk; cases hk
        rw [hc this, hk]; rfl
      obtain ⟨gk, hgk⟩ : ∃ gk, G k = some gk := by
        obtain ⟨gk, _, h1, _⟩ := hi.mem (k := k) (by rw [hk]; simp)
        exact ⟨gk, h1⟩
      obtain ⟨_, h2, h3⟩ := h.addV hgk
      obtain ⟨ws, st', h4, h5, h6, h7⟩ := collect_run (k :: r) [] h2 ha hcon (fuel := fuel) (q := some st.nv)
        (by rw [← hk, hi.length]; exact hf) ⟨st.nv, rfl, by simp [St.addV, upd]⟩
      refine ⟨ws, st', ?_, h5, h3.trans h6, h7⟩
      mstep (show begin_ v st = .ok (some st.nv, st.addV A (some k)) from hb)
      exact h4
  obtain ⟨ws, st', h1, h2, h3, h4⟩ := main
  refine ⟨ws, st', h1, h3, h4, by rw [h2.length, hi.length], fun i w hw => ?_⟩
  obtain ⟨k, hk, A', hon⟩ := h2.get hw
  rcases hi.at i with ⟨g1, _⟩ | ⟨k', gk, key, u, g1, g2, g3, g4, g5⟩
  · rw [hk] at g1; cases g1
  · rw [hk] at g1; cases g1
    exact ⟨key, u, g2, h4.inv.shows hon g5, a, gn, k, rfl, ha, hk, A', hon⟩

/-- Three members, printed one by one. -/
example : ((do
    let (v, _) ← make 0 b!"{\"a\":1,\"b\":[2],\"a\":3}"
    let ws ← children 9 v
    let ps ← ws.mapM fun w => stringify 99 w
    let ts ← ps.mapM fun p => readN p 2
    return (ws, ts) : M _) (start fun _ => 0)).out
    = .ok ([2, 3, 4], [b!"1" ++ [0], b!"[2", b!"3" ++ [0]]) := by decide +kernel

/-- A proper state with such a document. -/
example : ∃ st P G v a, Ready st P G v (some a) 0 ∧ Shows st v (.obj [(b!"a", .null), (b!"b", .arr []), (b!"a", .bool true)]) := by
  obtain ⟨st, P, G, v, a, h, h0⟩ := exists_example (t := .obj [(b!"a", .null), (b!"b", .arr []), (b!"a", .bool true)])
    (by simp only [Json.Valid, Json.ValidMembers, Json.ValidElems, and_true, true_and]
        refine ⟨?_, ?_, ?_⟩ <;> exact .plain (by decide) (by decide) (by decide) .nil) (fun _ => 0)
  exact ⟨st, P, G, v, a, h.ready, h.ready.shows h.doc⟩

/-! ### C26: ArrayGet is indexing -/

/-- C26. On an array `zj_ArrayGet(v, i)` returns null if there is no `i`-th element,
otherwise a new handle on the `i`-th node of the chain, which shows the `i`-th element. -/
theorem C26_arrayGet (h : Ready st P G v x A) {ts : List Json} (hs : Shows st v (.arr ts)) {fuel : Nat}
    (hf : ts.length < fuel) (i : Nat) :
    (ts[i]? = none ∧ arrayGet fuel v i st = .ok (none, st)) ∨
    ∃ u w k st', ts[i]? = some u ∧ arrayGet fuel v i st = .ok (some w, st') ∧ Unchanged st st' ∧ Shows st' w u ∧
      Ready st' P G w (some k) A ∧ Ready st' P G v x A ∧
      ∃ a gn, x = some a ∧ G a = some gn ∧ gn.val.kids[i]? = some k := by
  obtain ⟨a, gn, rfl, ha, hu⟩ := h.node_of hs
  obtain ⟨ks, hg, hi⟩ := hu.arr_inv
  have hr := arrayGet_run h.inv h.val ha hg (fuel := fuel) (index := i) (by rw [hi.length]; simpa using hf)
  rcases hi.at i with ⟨g1, g2⟩ | ⟨k, gk, key, u, g1, g2, g3, g4, g5⟩
  · refine .inl ⟨by simpa using g2, ?_⟩
    rw [hr, g1]; rfl
  · obtain ⟨h1, h2, h3⟩ := h.addV g3
    refine .inr ⟨u, st.nv, k, _, ?_, by rw [hr, g1]; rfl, h3, h1.shows g5, h1, h2, a, gn, rfl, ha, by rw [hg]; exact g1⟩
    rw [List.getElem?_map] at g2
    cases hu : ts[i]? with
    | none => rw [hu] at g2; cases g2
    | some u' => rw [hu] at g2; cases g2; rfl

/-- Index 1 and index 3 of a three element array. -/
example : ((do
    let (v, _) ← make 0 b!"[7,8,9]"
    let some w ← arrayGet 9 v 1 | return (none, none)
    let some (p, n) ← getNumFast w | return (none, none)
    return (some (← readN p n), ← arrayGet 9 v 3) : M _) (start fun _ => 0)).out = .ok (some b!"8", none) := by
  decide +kernel

/-! ### C27: ObjGet finds the first member with that raw key -/

theorem UnfI.find {key : Bytes} : ∀ {ks ms} (_ : UnfI G true ks ms),
    (findKey G key ks = none ∧ ∀ m ∈ ms, m.1 ≠ key) ∨
    ∃ (i : Nat) (k : Nat) (gk : GNode) (u : Json), findKey G key ks = some k ∧ ks[i]? = some k ∧ ms[i]? = some (key, u) ∧
      G k = some gk ∧ Unf G k u ∧
      ∀ (j : Nat) m, j < i → ms[j]? = some m → m.1 ≠ key
  | _, _, .nil => .inl ⟨rfl, fun _ h => by cases h⟩
  | _, _, .cons (k := k) (gk := gk) (key := kk) (t := t) hk hkey hu hr => by
    have hko : G.keyOf k = some kk := by
      unfold Graph.keyOf
      rw [hk]
      exact hkey
    rw [findKey_cons hko]
    by_cases e : key = kk
    · rw [if_pos e]
      subst e
      exact .inr ⟨0, k, gk, t, rfl, rfl, rfl, hk, hu, fun j m hj => by omega⟩
    · rw [if_neg e]
      rcases UnfI.find (key := key) hr with ⟨h1, h2⟩ | ⟨i, k', gk', u, h1, h2, h3, h4, h5, h6⟩
      · refine .inl ⟨h1, fun m hm => ?_⟩
        rcases List.mem_cons.1 hm with rfl | hm
        · exact fun h => e h.symm
        · exact h2 m hm
      · refine .inr ⟨i + 1, k', gk', u, h1, by simpa using h2, by simpa using h3, h4, h5, fun j m hj hm => ?_⟩
        cases j with
        | zero => cases hm; exact fun h => e h.symm
        | succ j => exact h6 j m (by omega) (by simpa using hm)

/-- What `zj_ObjGet` has to return: the first member with the key. -/
def FirstMember (st st' : St) (P : Addr → Prop) (G : Graph) (v : Addr) (x : Option Addr) (A : Nat)
    (ms : List (Bytes × Json)) (key : Bytes) (r : Option Addr) : Prop :=
  (r = none ∧ st' = st ∧ ∀ m ∈ ms, m.1 ≠ key) ∨
  ∃ (i : Nat) (u : Json) (w k : Nat), r = some w ∧ ms[i]? = some (key, u) ∧ (∀ (j : Nat) m, j < i → ms[j]? = some m → m.1 ≠ key) ∧
    Shows st' w u ∧ Unchanged st st' ∧ Ready st' P G w (some k) A ∧ Ready st' P G v x A ∧
    ∃ a gn, x = some a ∧ G a = some gn ∧ gn.val.kids[i]? = some k

theorem firstMember {ks ms a gn} (h : Ready st P G v (some a) A) (ha : G a = some gn) (hg : gn.val = .con true ks)
    (hi : UnfI G true ks ms) (key : Bytes) :
    FirstMember st (optHandle st A (findKey G key ks)).2 P G v (some a) A ms key (optHandle st A (findKey G key ks)).1 := by
  rcases hi.find (key := key) with ⟨h1, h2⟩ | ⟨i, k, gk, u, h1, h2, h3, h4, h5, h6⟩
  · rw [h1]; exact .inl ⟨rfl, rfl, h2⟩
  · rw [h1]
    obtain ⟨g1, g2, g3⟩ := h.addV h4
    exact .inr ⟨i, u, st.nv, k, rfl, h3, h6, g1.shows h5, g3, g1, g2, a, gn, rfl, ha, by rw [hg]; exact h2⟩

/-- C27. `zj_ObjGet(v, k)` returns a new handle on the first member whose raw key is `k`
byte for byte, null if there is none. The block `k` lies in may end right behind the NUL,
so no byte beyond it is read. (Keys of valid documents contain no NUL.) -/
theorem C27_objGet (h : Ready st P G v x A) {ms : List (Bytes × Json)} (hs : Shows st v (.obj ms))
    (hk : ∀ m ∈ ms, (0 : Byte) ∉ m.1) {fuel : Nat} (hf : ms.length < fuel) {key : Bytes} (hp : CStr st p key) :
    ∃ r st', objGet fuel v p st = .ok (r, st') ∧ FirstMember st st' P G v x A ms key r := by
  obtain ⟨a, gn, rfl, ha, hu⟩ := h.node_of hs
  obtain ⟨ks, hg, hi⟩ := hu.obj_inv
  refine ⟨_, _, objGet_run h.inv h.val ha hg hp (by rw [hi.length]; exact hf) ?_, firstMember h ha hg hi key⟩
  intro k hkm kk hkk
  obtain ⟨i, hi'⟩ := List.getElem?_of_mem hkm
  rcases hi.at i with ⟨g1, _⟩ | ⟨k', gk, key', u, g1, g2, g3, g4, _⟩
  · rw [hi'] at g1; cases g1
  · rw [hi'] at g1; cases g1
    have : G.keyOf k = some key' := by unfold Graph.keyOf; rw [g3]; exact g4
    rw [this] at hkk; cases hkk
    exact hk _ (List.mem_of_getElem? g2)

/-- C27 for `zj_ObjGetLen`, for any bytes. -/
theorem C27_objGetLen (h : Ready st P G v x A) {ms : List (Bytes × Json)} (hs : Shows st v (.obj ms))
    {fuel : Nat} (hf : ms.length < fuel) {key : Bytes} (hp : Points st p key) :
    ∃ r st', objGetLen fuel v p key.length st = .ok (r, st') ∧ FirstMember st st' P G v x A ms key r := by
  obtain ⟨a, gn, rfl, ha, hu⟩ := h.node_of hs
  obtain ⟨ks, hg, hi⟩ := hu.obj_inv
  exact ⟨_, _, objGetLen_run h.inv h.val ha hg hp (by rw [hi.length]; exact hf), firstMember h ha hg hi key⟩

/-- C27, the two agree. -/
theorem C27_agree (h : Ready st P G v x A) {ms : List (Bytes × Json)} (hs : Shows st v (.obj ms))
    (hk : ∀ m ∈ ms, (0 : Byte) ∉ m.1) {fuel : Nat} (hf : ms.length < fuel) {key : Bytes} (hp : CStr st p key) :
    objGet fuel v p st = objGetLen fuel v p key.length st := by
  obtain ⟨a, gn, rfl, ha, hu⟩ := h.node_of hs
  obtain ⟨ks, hg, hi⟩ := hu.obj_inv
  rw [objGetLen_run h.inv h.val ha hg hp.strAt (by rw [hi.length]; exact hf)]
  refine objGet_run h.inv h.val ha hg hp (by rw [hi.length]; exact hf) ?_
  intro k hkm kk hkk
  obtain ⟨i, hi'⟩ := List.getElem?_of_mem hkm
  rcases hi.at i with ⟨g1, _⟩ | ⟨k', gk, key', u, g1, g2, g3, g4, _⟩
  · rw [hi'] at g1; cases g1
  · rw [hi'] at g1; cases g1
    have : G.keyOf k = some key' := by unfold Graph.keyOf; rw [g3]; exact g4
    rw [this] at hkk; cases hkk
    exact hk _ (List.mem_of_getElem? g2)

/-- Valid documents have no NUL in their keys, so C27 applies to them. -/
theorem valid_keys : ∀ {ms : List (Bytes × Json)}, Json.ValidMembers ms → ∀ m ∈ ms, (0 : Byte) ∉ m.1
  | [], _, _, h => by cases h
  | (k, t) :: ms, ⟨h1, _, h2⟩, m, hm => by
    rcases List.mem_cons.1 hm with rfl | hm
    · exact h1.no_nul
    · exact valid_keys h2 m hm

/-- Duplicate keys, a key that is a prefix of another, a missing key, an empty key. -/
example : ((do
    let (v, _) ← make 0 b!"{\"ab\":1,\"a\":2,\"a\":3,\"\":4}"
    let find (k : Bytes) : M (Option Bytes) := do
      let p ← callerText (k ++ [0])
      let some w ← objGet 9 v p | return none
      let some (q, n) ← getNumFast w | return none
      return some (← readN q n)
    return [← find b!"a", ← find b!"ab", ← find b!"abc", ← find b!"", ← find b!"b"] : M _) (start fun _ => 0)).out
    = .ok [some b!"2", some b!"1", none, some b!"4", none] := by decide +kernel

end

end ZJ
