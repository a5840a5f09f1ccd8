import Verif.PropMap

/-
C69: a path of indices and keys followed with `zj_ArrayGet` and `zj_ObjGet`, and editing the
value found at its end.
-/

set_option linter.unusedVariables false

namespace ZJ

/-! ### Specification -/

/-- One step of a path. -/
inductive Turn where
  | idx (i : Nat)
  | key (k : Bytes)

/-- The first member named `key`: its place and its value. -/
def memberAt (key : Bytes) : List (Bytes × Json) → Option (Nat × Json)
  | [] => none
  | (k, t) :: ms => if k = key then some (0, t) else (memberAt key ms).map fun m => (m.1 + 1, m.2)

/-- The place a path leads to in a document: an index leads to the element of an array, a key
to the first member of an object with this key; nothing else leads anywhere. -/
def Json.placeOf : List Turn → Json → Option (List Nat)
  | [], _ => some []
  | .idx i :: r, .arr xs => xs[i]?.bind fun u => (Json.placeOf r u).map (i :: ·)
  | .key k :: r, .obj ms => (memberAt k ms).bind fun m => (Json.placeOf r m.2).map (m.1 :: ·)
  | _ :: _, _ => none

/-- More steps than any array or object in the document has children. -/
def Wide (fuel : Nat) (t : Json) : Prop := ∀ q u, t.at q = some u → u.items.length < fuel

/-- The keys of the path have no NUL: they are given as C strings. -/
def Sayable (r : List Turn) : Prop := ∀ k, Turn.key k ∈ r → (0 : Byte) ∉ k

/-! ### The program -/

/-- The caller follows a path: `zj_ArrayGet` for an index, `zj_ObjGet` for a key, until the end
of the path or the first null (zzzjson.h:1693-1711, 1766-1788). -/
def goTo (fuel : Nat) : List Turn → Addr → M (Option Addr)
  | [], v => pure (some v)
  | .idx i :: r, v => do
    match ← arrayGet fuel v i with
    | none => pure none
    | some w => goTo fuel r w
  | .key k :: r, v => do
    match ← askKey fuel v k with
    | none => pure none
    | some w => goTo fuel r w

/-- The caller parses a text into the value at the end of a path, if there is one. -/
def writeAt (fuel : Nat) (r : List Turn) (v : Addr) (b : Bytes) : M Bool := do
  match ← goTo fuel r v with
  | none => pure false
  | some w => do
    let p ← callerText (b ++ [0])
    parse w p

/-! ### Lemmas about the specification -/

theorem memberAt_none {key : Bytes} : ∀ {ms : List (Bytes × Json)}, (∀ m ∈ ms, m.1 ≠ key) → memberAt key ms = none
  | [], _ => rfl
  | (k, t) :: ms, h => by
    rw [memberAt, if_neg (h _ (List.mem_cons_self ..)), memberAt_none fun m hm => h m (List.mem_cons_of_mem _ hm)]; rfl

theorem memberAt_at {key : Bytes} {u : Json} : ∀ {ms : List (Bytes × Json)} {i : Nat}, ms[i]? = some (key, u) →
    (∀ (j : Nat) m, j < i → ms[j]? = some m → m.1 ≠ key) → memberAt key ms = some (i, u)
  | [], i, h, _ => by simp at h
  | (k, t) :: ms, 0, h, _ => by
    simp at h
    simp [memberAt, h]
  | (k, t) :: ms, i + 1, h, h' => by
    rw [memberAt, if_neg (h' 0 (k, t) (by omega) rfl),
      memberAt_at (i := i) (by simpa using h) fun j m hj hm => h' (j + 1) m (by omega) (by simpa using hm)]
    rfl

theorem Wide.arr {fuel : Nat} {xs : List Json} (h : Wide fuel (.arr xs)) {i : Nat} {u : Json} (hi : xs[i]? = some u) : Wide fuel u :=
  fun q w hq => h (i :: q) w (by simp [Json.at, hi, hq])

theorem Wide.obj {fuel : Nat} {ms : List (Bytes × Json)} (h : Wide fuel (.obj ms)) {i : Nat} {k u} (hi : ms[i]? = some (k, u)) :
    Wide fuel u :=
  fun q w hq => h (i :: q) w (by simp [Json.at, hi, hq])

theorem valid_elem : ∀ {xs : List Json}, Json.ValidElems xs → ∀ x ∈ xs, x.Valid
  | [], _, _, h => by cases h
  | _ :: _, ⟨h1, h2⟩, x, hx => by
    rcases List.mem_cons.1 hx with rfl | hx
    · exact h1
    · exact valid_elem h2 x hx

theorem valid_member : ∀ {ms : List (Bytes × Json)}, Json.ValidMembers ms → ∀ m ∈ ms, m.2.Valid
  | [], _, _, h => by cases h
  | (k, t) :: ms, ⟨_, h1, h2⟩, m, hm => by
    rcases List.mem_cons.1 hm with rfl | hm
    · exact h1
    · exact valid_member h2 m hm

mutual
/-- Every document has finitely many children everywhere. -/
theorem wide_exists : ∀ t : Json, ∃ n, ∀ fuel, n ≤ fuel → Wide fuel t
  | .null => ⟨1, fun fuel hf q u h => by cases q <;> simp [Json.at] at h; subst h; simp [Json.items]; omega⟩
  | .bool _ => ⟨1, fun fuel hf q u h => by cases q <;> simp [Json.at] at h; subst h; simp [Json.items]; omega⟩
  | .num _ => ⟨1, fun fuel hf q u h => by cases q <;> simp [Json.at] at h; subst h; simp [Json.items]; omega⟩
  | .str _ => ⟨1, fun fuel hf q u h => by cases q <;> simp [Json.at] at h; subst h; simp [Json.items]; omega⟩
  | .arr xs => by
    obtain ⟨n, hn⟩ := wideElems_exists xs
    refine ⟨n + xs.length + 1, fun fuel hf q u h => ?_⟩
    cases q with
    | nil => simp [Json.at] at h; subst h; simp [Json.items]; omega
    | cons i q =>
      simp only [Json.at, Option.bind_eq_some_iff] at h
      obtain ⟨y, h1, h2⟩ := h
      exact hn fuel (by omega) y (List.mem_of_getElem? h1) q u h2
  | .obj ms => by
    obtain ⟨n, hn⟩ := wideMembers_exists ms
    refine ⟨n + ms.length + 1, fun fuel hf q u h => ?_⟩
    cases q with
    | nil => simp [Json.at] at h; subst h; simp [Json.items]; omega
    | cons i q =>
      simp only [Json.at, Option.bind_eq_some_iff] at h
      obtain ⟨y, h1, h2⟩ := h
      exact hn fuel (by omega) y (List.mem_of_getElem? h1) q u h2
theorem wideElems_exists : ∀ xs : List Json, ∃ n, ∀ fuel, n ≤ fuel → ∀ x ∈ xs, Wide fuel x
  | [] => ⟨0, fun _ _ _ h => by cases h⟩
  | x :: xs => by
    obtain ⟨n, hn⟩ := wide_exists x
    obtain ⟨m, hm⟩ := wideElems_exists xs
    refine ⟨n + m, fun fuel hf y hy => ?_⟩
    rcases List.mem_cons.1 hy with rfl | hy
    · exact hn fuel (by omega)
    · exact hm fuel (by omega) y hy
theorem wideMembers_exists : ∀ ms : List (Bytes × Json), ∃ n, ∀ fuel, n ≤ fuel → ∀ m ∈ ms, Wide fuel m.2
  | [] => ⟨0, fun _ _ _ h => by cases h⟩
  | (k, x) :: xs => by
    obtain ⟨n, hn⟩ := wide_exists x
    obtain ⟨m, hm⟩ := wideMembers_exists xs
    refine ⟨n + m, fun fuel hf y hy => ?_⟩
    rcases List.mem_cons.1 hy with rfl | hy
    · exact hn fuel (by omega)
    · exact hm fuel (by omega) y hy
end

theorem memberAt_modify {key : Bytes} {f : Json → Json} : ∀ {ms : List (Bytes × Json)} {i : Nat} {u : Json},
    memberAt key ms = some (i, u) → memberAt key (ms.modify i fun m => (m.1, f m.2)) = some (i, f u) ∧ ms[i]? = some (key, u)
  | [], _, _, h => by simp [memberAt] at h
  | (k, t) :: ms, i, u, h => by
    rw [memberAt] at h
    split at h
    · rename_i e
      cases h
      simp [memberAt, e]
    · rename_i e
      cases hm : memberAt key ms with
      | none => rw [hm] at h; cases h
      | some m =>
        obtain ⟨j, u'⟩ := m
        rw [hm] at h
        cases h
        obtain ⟨h1, h2⟩ := memberAt_modify (f := f) hm
        refine ⟨?_, by simpa using h2⟩
        rw [List.modify_succ_cons, memberAt, if_neg e, h1]
        rfl

/-- A place a path leads to is a place of the document. -/
theorem placeOf_at : ∀ {path : List Turn} {t : Json} {q : List Nat}, t.placeOf path = some q → ∃ u, t.at q = some u
  | [], t, q, h => by simp [Json.placeOf] at h; subst h; exact ⟨t, rfl⟩
  | .idx i :: r, t, q, h => by
    cases t <;> simp only [Json.placeOf, reduceCtorEq, Option.bind_eq_some_iff, Option.map_eq_some_iff] at h
    obtain ⟨u, h1, q', h2, rfl⟩ := h
    obtain ⟨y, hy⟩ := placeOf_at h2
    exact ⟨y, by simp [Json.at, h1, hy]⟩
  | .key k :: r, t, q, h => by
    cases t <;> simp only [Json.placeOf, reduceCtorEq, Option.bind_eq_some_iff, Option.map_eq_some_iff] at h
    obtain ⟨⟨i, u⟩, h1, q', h2, rfl⟩ := h
    obtain ⟨y, hy⟩ := placeOf_at h2
    exact ⟨y, by simp [Json.at, (memberAt_modify (f := id) h1).2, hy]⟩

/-- After a value was replaced the path to it leads to the same place. -/
theorem placeOf_replace {u : Json} : ∀ {path : List Turn} {t : Json} {q : List Nat}, t.placeOf path = some q →
    (t.replace q u).placeOf path = some q
  | [], t, q, h => by simp [Json.placeOf] at h; subst h; rfl
  | .idx i :: r, t, q, h => by
    cases t <;> simp only [Json.placeOf, reduceCtorEq, Option.bind_eq_some_iff, Option.map_eq_some_iff] at h
    obtain ⟨y, h1, q', h2, rfl⟩ := h
    have := placeOf_replace (u := u) h2
    simp only [Json.replace] at this ⊢
    simp [Json.edit, Json.placeOf, h1, this]
  | .key k :: r, t, q, h => by
    cases t <;> simp only [Json.placeOf, reduceCtorEq, Option.bind_eq_some_iff, Option.map_eq_some_iff] at h
    obtain ⟨⟨i, y⟩, h1, q', h2, rfl⟩ := h
    have := placeOf_replace (u := u) h2
    simp only [Json.replace] at this ⊢
    simp [Json.edit, Json.placeOf, (memberAt_modify (f := Json.edit (fun _ => u) q') h1).1, this]

theorem validElems_modify {f : Json → Json} : ∀ {xs : List Json} {i : Nat}, Json.ValidElems xs →
    (∀ y, xs[i]? = some y → (f y).Valid) → Json.ValidElems (xs.modify i f)
  | [], i, _, _ => by simp [Json.ValidElems]
  | x :: xs, 0, h, h' => ⟨h' x rfl, h.2⟩
  | x :: xs, i + 1, h, h' => by
    rw [List.modify_succ_cons]
    exact ⟨h.1, validElems_modify h.2 fun y hy => h' y (by simpa using hy)⟩

theorem validMembers_modify {f : Json → Json} : ∀ {ms : List (Bytes × Json)} {i : Nat}, Json.ValidMembers ms →
    (∀ k y, ms[i]? = some (k, y) → (f y).Valid) → Json.ValidMembers (ms.modify i fun m => (m.1, f m.2))
  | [], i, _, _ => by simp [Json.ValidMembers]
  | (k, x) :: xs, 0, h, h' => ⟨h.1, h' k x rfl, h.2.2⟩
  | (k, x) :: xs, i + 1, h, h' => by
    rw [List.modify_succ_cons]
    exact ⟨h.1, h.2.1, validMembers_modify h.2.2 fun k y hy => h' k y (by simpa using hy)⟩

/-- Replacing a value of a valid document by a valid one gives a valid document. -/
theorem replace_valid {u : Json} (hu : u.Valid) : ∀ {q : List Nat} {t : Json}, t.Valid → (t.replace q u).Valid
  | [], t, _ => hu
  | i :: q, .arr xs, h => by
    show Json.ValidElems (xs.modify i (Json.edit (fun _ => u) q))
    exact validElems_modify h fun y hy => replace_valid hu (q := q) (valid_elem h _ (List.mem_of_getElem? hy))
  | i :: q, .obj ms, h => by
    show Json.ValidMembers (ms.modify i fun m => (m.1, Json.edit (fun _ => u) q m.2))
    exact validMembers_modify h fun k y hy => replace_valid hu (q := q) (valid_member h _ (List.mem_of_getElem? hy))
  | _ :: _, .null, h => h
  | _ :: _, .bool _, h => h
  | _ :: _, .num _, h => h
  | _ :: _, .str _, h => h

theorem goTo_mono {f g : Nat} (h : f ≤ g) : ∀ (path : List Turn) (v : Addr), MLe (goTo f path v) (goTo g path v)
  | [], _ => MLe.refl _
  | .idx i :: r, v => by
    unfold goTo
    refine MLe.bind (arrayGet_mono h) fun o => ?_
    cases o with
    | none => exact MLe.refl _
    | some w => exact goTo_mono h r w
  | .key k :: r, v => by
    unfold goTo askKey
    refine MLe.bind (MLe.bind' fun _ => objGet_mono h) fun o => ?_
    cases o with
    | none => exact MLe.refl _
    | some w => exact goTo_mono h r w

theorem writeAt_mono {f g : Nat} (h : f ≤ g) (path : List Turn) (v : Addr) (b : Bytes) : MLe (writeAt f path v b) (writeAt g path v b) := by
  unfold writeAt
  exact MLe.bind (goTo_mono h path v) fun o => MLe.refl _

section
variable {st st' : St} {P P' : Addr → Prop} {G G' : Graph} {v w A B a k : Addr} {x : Option Addr} {t u : Json} {b : Bytes}

/-- What following a path has to give: null if the path leads nowhere; otherwise a handle that
shows the value at the place the path leads to. No old node, handle or string was written. -/
def Leads (st st' : St) (P : Addr → Prop) (G : Graph) (v a : Addr) (A : Nat) (t : Json) (path : List Turn)
    (r : Option Addr) : Prop :=
  Unchanged st st' ∧ Ready st' P G v (some a) A ∧
  match t.placeOf path with
  | none => r = none
  | some q => ∃ w k u, r = some w ∧ t.at q = some u ∧ Shows st' w u ∧ Ready st' P G w (some k) A ∧ PathTo G a q k

/-- One step further. -/
theorem Leads.cons {st1 : St} {path : List Turn} {s : Turn} {i : Nat} {gn : GNode} {r : Option Addr} (hU : Unchanged st st1) (hv : Ready st1 P G v (some a) A)
    (hp : t.placeOf (s :: path) = (u.placeOf path).map (i :: ·)) (ht : ∀ q, t.at (i :: q) = u.at q)
    (ha : G a = some gn) (hk : gn.val.kids[i]? = some k) (h : Leads st1 st' P G w k A u path r) :
    Leads st st' P G v a A t (s :: path) r := by
  obtain ⟨h1, h2, h3⟩ := h
  refine ⟨hU.trans h1, hv.unchanged h1 h2.inv.ok, ?_⟩
  rw [hp]
  cases e : u.placeOf path with
  | none => rw [e] at h3; exact h3
  | some q =>
    rw [e] at h3
    obtain ⟨w', k', u', e1, e2, e3, e4, e5⟩ := h3
    exact ⟨w', k', u', e1, (ht q).trans e2, e3, e4, .cons ha hk e5⟩

/-- C69. Following a path with `zj_ArrayGet` and `zj_ObjGet` finds exactly the value at the
place the path leads to in the document, and null exactly if it leads nowhere. -/
theorem C69_goTo {fuel : Nat} : ∀ {path : List Turn} {st : St} {v a : Addr} {t : Json}, Ready st P G v (some a) A → Shows st v t →
    t.Valid → Wide fuel t → Sayable path →
    ∃ r st', goTo fuel path v st = .ok (r, st') ∧ Leads st st' P G v a A t path r
  | [], st, v, a, t, h, hs, _, _, _ =>
    ⟨some v, st, rfl, .refl, h, v, a, t, rfl, rfl, hs, h, .nil⟩
  | .idx i :: r, st, v, a, t, h, hs, hv, hw, hk => by
    have nope : t.type ≠ .array → ∃ o st', goTo fuel (.idx i :: r) v st = .ok (o, st') ∧ Leads st st' P G v a A t (.idx i :: r) o := by
      intro hn
      refine ⟨none, st, ?_, .refl, h, ?_⟩
      · have := (C20_wrong_type (fp := (⟨fun _ => [], fun _ => 0⟩ : FP Nat)) h hs).2.2.2.2.1 hn fuel i
        unfold goTo
        mstep this
        rfl
      · cases t <;> first | exact absurd rfl hn | rfl
    cases t with
    | arr xs =>
      rcases C26_arrayGet h hs (fuel := fuel) (by simpa [Json.items] using hw [] _ rfl) i with
        ⟨h1, h2⟩ | ⟨u, w, k, st1, h1, h2, h3, h4, h5, h6, a', gn, e, h7, h8⟩
      · refine ⟨none, st, ?_, .refl, h, ?_⟩
        · unfold goTo
          mstep h2
          rfl
        · simp [Json.placeOf, h1]
      · cases e
        obtain ⟨o, st', g1, g2⟩ := C69_goTo (path := r) h5 h4 (valid_elem hv _ (List.mem_of_getElem? h1)) (hw.arr h1)
          (fun k hm => hk k (List.mem_cons_of_mem _ hm))
        refine ⟨o, st', ?_, g2.cons h3 h6 ?_ ?_ h7 h8⟩
        · show (do match ← arrayGet fuel v i with | none => pure none | some w => goTo fuel r w : M _) st = _
          mstep h2
          exact g1
        · simp [Json.placeOf, h1]
        · intro q; simp [Json.at, h1]
    | _ => exact nope (by simp [Json.type])
  | .key key :: r, st, v, a, t, h, hs, hv, hw, hk => by
    have hR := h.addC (d := key ++ [0])
    have hs' : Shows (st.addC (key ++ [0])) v t := hR.shows (h.unf hs)
    have nope : t.type ≠ .object → ∃ o st', goTo fuel (.key key :: r) v st = .ok (o, st') ∧ Leads st st' P G v a A t (.key key :: r) o := by
      intro hn
      refine ⟨none, st.addC (key ++ [0]), ?_, addC_unch, hR, ?_⟩
      · have := ((C20_wrong_type (fp := (⟨fun _ => [], fun _ => 0⟩ : FP Nat)) hR hs').2.2.2.1 hn fuel (.buf st.nb 0) 0).1
        have : askKey fuel v key st = .ok (none, st.addC (key ++ [0])) := this
        unfold goTo
        mstep this
        rfl
      · cases t <;> first | exact absurd rfl hn | rfl
    cases t with
    | obj ms =>
      obtain ⟨o, st1, h1, h2⟩ := C27_objGet hR hs' (valid_keys hv) (fuel := fuel) (by simpa [Json.items] using hw [] _ rfl)
        (addC_cstr (hk key (List.mem_cons_self ..)))
      have h1 : askKey fuel v key st = .ok (o, st1) := h1
      rcases h2 with ⟨rfl, e, h3⟩ | ⟨i, u, w, k, rfl, h3, h4, h5, h6, h7, h8, a', gn, e, h9, h10⟩
      · subst e
        refine ⟨none, _, ?_, addC_unch, hR, ?_⟩
        · unfold goTo
          mstep h1
          rfl
        · simp [Json.placeOf, memberAt_none h3]
      · cases e
        obtain ⟨o, st', g1, g2⟩ := C69_goTo (path := r) h7 h5 (valid_member hv _ (List.mem_of_getElem? h3)) (hw.obj h3)
          (fun k hm => hk k (List.mem_cons_of_mem _ hm))
        refine ⟨o, st', ?_, g2.cons (addC_unch.trans h6) h8 ?_ ?_ h9 h10⟩
        · show (do match ← askKey fuel v key with | none => pure none | some w => goTo fuel r w : M _) st = _
          mstep h1
          exact g1
        · simp [Json.placeOf, memberAt_at h3 h4]
        · intro q; simp [Json.at, h3]
    | _ => exact nope (by simp [Json.type])

/-- C69, writing: whatever setter is called through the handle found (`Becomes`, C15-C17, C19,
C22, C23), the document it was looked up in has the new value at the place of the path, and
everything else in it is as it was. -/
theorem C69_set {path : List Turn} {q : List Nat} {st1 : St} {B : Addr} (hs : Shows st v t) (h : Ready st P G v (some a) A)
    (hl : Leads st st1 P G v a A t path (some w)) (hq : t.placeOf path = some q)
    (hb : ∀ y, Ready st1 P G w y A → Becomes st1 st' P P' G w y A u) :
    Shows st' v (t.replace q u) := by
  obtain ⟨h1, h2, h3⟩ := hl
  rw [hq] at h3
  obtain ⟨w', k, u', e, h4, h5, h6, h7⟩ := h3
  cases e
  have hb := hb _ h6
  by_cases hne : v = w
  · subst hne
    have e := h6.val.symm.trans h2.val
    simp at e; subst e
    obtain rfl := h6.inv.path_unique h7 .nil
    exact hb.shows
  · exact (hb.elsewhere h6 h2 hne (h2.shows (h.unf hs))).2 q h7

/-- C69, writing a document: parsing a JSON text of `u` into the value at the end of the path
gives true and changes the document to the one with `u` at this place. -/
theorem C69_writeAt {fuel : Nat} {path : List Turn} {q : List Nat} (h : Ready st P G v (some a) A) (hs : Shows st v t) (hv : t.Valid)
    (hw : Wide fuel t) (hk : Sayable path) (hq : t.placeOf path = some q) (hu : JText u b) :
    ∃ st' P' G' a', writeAt fuel path v b st = .ok (true, st') ∧ Ready st' P' G' v (some a') A ∧ Shows st' v (t.replace q u) := by
  obtain ⟨o, st1, h1, hl⟩ := C69_goTo h hs hv hw hk
  obtain ⟨g1, g2, g3⟩ := hl
  rw [hq] at g3
  obtain ⟨w, k, u', rfl, h4, h5, h6, h7⟩ := g3
  have hR := h6.addC (d := b ++ [0])
  have hV := g2.addC (d := b ++ [0])
  have hc := addC_cstr (st := st1) hu.no_nul
  obtain ⟨st', e⟩ := (C01_parse_true_iff hR hc).2 ⟨u, hu⟩
  obtain ⟨t', _, hsh, hun⟩ := C02_parse_document hR hc e
  obtain rfl := hun u hu
  obtain ⟨hf, P', G', hr, hG, gn, e1, e2, e3⟩ := C02_parse_frame hR hc e
  have hrun : writeAt fuel path v b st = .ok (true, st') := by
    unfold writeAt
    mstep h1
    exact e
  by_cases hne : v = w
  · subst hne
    have e := h6.val.symm.trans g2.val
    simp at e; subst e
    obtain rfl := h6.inv.path_unique h7 .nil
    exact ⟨st', P', G', _, hrun, hr, hsh⟩
  · have hd : EditAt G G' k u := by
      have hkey : ∀ c gc, G c = some gc → ∃ gc', G' c = some gc' ∧ gc'.key = gc.key := by
        intro c gc hc
        by_cases hck : c = k
        · subst hck
          exact ⟨gn, e1, by rw [e2, base_key hR hc]⟩
        · exact ⟨gc, hG c gc hck hc, rfl⟩
      exact ⟨fun c gc hc hg => ⟨gc, hG c gc hc hg, rfl⟩, fun c gc k' gk hc hg hk hgk => hkey k' gk hgk, hr.unf hsh⟩
    have hvv : st'.vals v = some ⟨some a, A⟩ := by
      rw [hf.vals v (hV.inv.ok.val_lt hV.val) hne]; exact hV.val
    obtain ⟨ga, hga⟩ := Option.isSome_iff_exists.1 (hV.node a rfl)
    have hr' : Ready st' P' G' v (some a) A := by
      refine ⟨hr.inv, hr.cok, hvv, fun c hc => ?_⟩
      cases hc
      by_cases hck : a = k
      · subst hck
        have := congrArg Option.isSome e1
        simpa [rootOf] using this
      · rw [hG a ga hck hga]; rfl
    exact ⟨st', P', G', a, hrun, hr', (hd.shows hV hr' (hV.shows (h.unf hs))).2 q h7⟩

/-- C69, a path that leads nowhere: nothing is written. -/
theorem C69_writeAt_nowhere {fuel : Nat} {path : List Turn} (h : Ready st P G v (some a) A) (hs : Shows st v t) (hv : t.Valid)
    (hw : Wide fuel t) (hk : Sayable path) (hq : t.placeOf path = none) :
    ∃ st', writeAt fuel path v b st = .ok (false, st') ∧ Unchanged st st' ∧ Ready st' P G v (some a) A ∧ Shows st' v t := by
  obtain ⟨o, st1, h1, g1, g2, g3⟩ := C69_goTo h hs hv hw hk
  rw [hq] at g3
  subst g3
  refine ⟨st1, ?_, g1, g2, g2.shows (h.unf hs)⟩
  unfold writeAt
  mstep h1
  rfl

/-- C69 for whole programs: `zj_Parse` of a text of `t`; then `zj_Parse` of a text of `u` into
the value at the end of a path; then the same path is followed again and the value there and
the whole document are printed. If the path leads to a place `q` of `t` the program prints `u`
and the document `t` with `u` at `q`; if it leads nowhere, nothing and `t`. -/
theorem C69_program (slack : Nat → Nat) {cfg : Cfg} {d : Bytes} (ht : JText t d) (hu : JText u b) {path : List Turn} (hk : Sayable path) :
    ∃ c, ∀ fuel, c ≤ fuel →
      (∀ q, t.placeOf path = some q → ((do
        let A ← newAllocator
        let v ← newValue A
        let p ← callerText (d ++ [0])
        let r ← parse v p
        let r' ← writeAt fuel path v b
        let w ← deref (← goTo fuel path v)
        let s ← stringify fuel w
        let x ← readN s u.print.length
        let s ← stringify fuel v
        let y ← readN s (t.replace q u).print.length
        return (r, r', x, y) : M _) (St.init slack cfg)).out = .ok (true, true, u.print, (t.replace q u).print)) ∧
      (t.placeOf path = none → ((do
        let A ← newAllocator
        let v ← newValue A
        let p ← callerText (d ++ [0])
        let r ← parse v p
        let r' ← writeAt fuel path v b
        let w ← goTo fuel path v
        let s ← stringify fuel v
        let y ← readN s t.print.length
        return (r, r', w, y) : M _) (St.init slack cfg)).out = .ok (true, false, none, t.print)) := by
  have hR := (start_ready slack cfg).addC (d := d ++ [0])
  have hc := addC_cstr (st := start slack cfg) ht.no_nul
  obtain ⟨st1, h1⟩ := (C01_parse_true_iff hR hc).2 ⟨t, ht⟩
  obtain ⟨t', _, hs1, hun⟩ := C02_parse_document hR hc h1
  obtain rfl := hun t ht
  obtain ⟨_, P1, G1, hR1, _⟩ := C02_parse_frame hR hc h1
  obtain ⟨n, hn⟩ := wide_exists t
  cases hq : t.placeOf path with
  | some q =>
    obtain ⟨m, hm⟩ := wide_exists (t.replace q u)
    obtain ⟨st2, P2, G2, a2, h2, hR2, hs2⟩ := C69_writeAt hR1 hs1 ht.valid (hn _ (Nat.le_add_right n m)) hk hq hu
    obtain ⟨o, st3, h3, _, hR3, hl⟩ := C69_goTo hR2 hs2 (replace_valid hu.valid ht.valid) (hm _ (Nat.le_add_left m n)) hk
    rw [placeOf_replace hq] at hl
    obtain ⟨w, k, u', rfl, e, hs3, hR3w, _⟩ := hl
    obtain ⟨y, hy⟩ := placeOf_at hq
    have e' : (t.replace q u).at q = some u := Json.at_edit hy
    obtain rfl : u = u' := by rw [e'] at e; exact Option.some.inj e
    obtain ⟨c1, s1, st4, h4, g4, _, hU, _⟩ := C09_stringify hR3w hs3
    have hR4 := hR3.unchanged hU (by assumption : Ready st4 _ _ _ _ _).inv.ok
    obtain ⟨c2, s2, st5, h5, g5, _, _, hR5⟩ := C09_stringify hR4 (hR4.shows (hR2.unf hs2))
    refine ⟨n + m + c1 + c2, fun fuel hf => ⟨fun q' hq' => ?_, fun h => by cases h⟩⟩
    cases hq'
    have hrun : (do
        let p ← callerText (d ++ [0])
        let r ← parse 0 p
        let r' ← writeAt fuel path 0 b
        let w ← deref (← goTo fuel path 0)
        let s ← stringify fuel w
        let x ← readN s u.print.length
        let s ← stringify fuel 0
        let y ← readN s (t.replace q u).print.length
        return (r, r', x, y) : M _) (start slack cfg) = .ok ((true, true, u.print, (t.replace q u).print), st5) := by
      mstep callerText_run _ _
      mstep h1
      mstep (writeAt_mono (by omega) path 0 b).ok h2
      mstep (goTo_mono (by omega) path 0).ok h3
      simp only [deref_some]
      mstep M.pure_run _ _
      mstep h4 fuel (by omega)
      mstep g4.reads hR4.inv.ok
      mstep h5 fuel (by omega)
      mstep g5.reads hR5.inv.ok
      rfl
    exact congrArg Res.out hrun
  | none =>
    obtain ⟨st2, h2, hU, hR2, hs2⟩ := C69_writeAt_nowhere (b := b) hR1 hs1 ht.valid (hn _ (Nat.le_refl n)) hk hq
    obtain ⟨o, st3, h3, _, hR3, hl⟩ := C69_goTo hR2 hs2 ht.valid (hn _ (Nat.le_refl n)) hk
    rw [hq] at hl
    obtain rfl := hl
    obtain ⟨c2, s2, st5, h5, g5, _, _, hR5⟩ := C09_stringify hR3 (hR3.shows (hR2.unf hs2))
    refine ⟨n + c2, fun fuel hf => ⟨fun q' hq' => by (cases hq'), fun _ => ?_⟩⟩
    have hrun : (do
        let p ← callerText (d ++ [0])
        let r ← parse 0 p
        let r' ← writeAt fuel path 0 b
        let w ← goTo fuel path 0
        let s ← stringify fuel 0
        let y ← readN s t.print.length
        return (r, r', w, y) : M _) (start slack cfg) = .ok ((true, false, none, t.print), st5) := by
      mstep callerText_run _ _
      mstep h1
      mstep (writeAt_mono (by omega) path 0 b).ok h2
      mstep (goTo_mono (by omega) path 0).ok h3
      mstep h5 fuel (by omega)
      mstep g5.reads hR5.inv.ok
      rfl
    exact congrArg Res.out hrun

/-- A path through an object, an array and an object; a repeated key. -/
example : (Json.obj [(b!"a", .null), (b!"b", .arr [.null, .obj [(b!"c", .num b!"1"), (b!"c", .num b!"2")]])]).placeOf
    [.key b!"b", .idx 1, .key b!"c"] = some [1, 1, 0] := by decide +kernel

example : ((do
    let A ← newAllocator
    let v ← newValue A
    let p ← callerText (b!"{\"a\":null,\"b\":[7,{\"c\":1,\"c\":2}]}" ++ [0])
    let r ← parse v p
    let r1 ← writeAt 9 [.key b!"b", .idx 1, .key b!"c"] v b!" [ true ] "
    let r2 ← writeAt 9 [.key b!"b", .idx 2, .key b!"c"] v b!"1"
    let s ← stringify 99 v
    let y ← readN s 37
    return (r, r1, r2, y) : M _) (St.init fun _ => 0)).out
      = .ok (true, true, false, b!"{\"a\":null,\"b\":[7,{\"c\":[true],\"c\":2}]}") := by decide +kernel

/-- The hypotheses of `C69_writeAt` for any valid document. -/
example {t : Json} (ht : t.Valid) (slack : Nat → Nat) {path q} (hq : t.placeOf path = some q) :
    ∃ st P G v a fuel, Ready st P G v (some a) 0 ∧ Shows st v t ∧ Wide fuel t ∧ t.placeOf path = some q := by
  obtain ⟨st, P, G, v, a, h, _⟩ := exists_example ht slack
  obtain ⟨n, hn⟩ := wide_exists t
  exact ⟨st, P, G, v, a, n, h.ready, h.ready.shows h.doc, hn n (Nat.le_refl n), hq⟩

end

end ZJ
