import Verif.PropEdit
import Verif.PropGet

/-
C64: an object as a map from keys to values: what `zj_ObjGet` answers after `zj_ObjAdd` and
`zj_ObjDel`.
-/

set_option linter.unusedVariables false

namespace ZJ

/-! ### Specification -/

/-- The value of the first member named `key`. -/
def valueOf (key : Bytes) : List (Bytes × Json) → Option Json
  | [] => none
  | (k, t) :: ms => if k = key then some t else valueOf key ms

/-- The returned handle is null, or shows the value. -/
def FoundAs (st : St) : Option Addr → Option Json → Prop
  | none, none => True
  | some w, some t => Shows st w t
  | _, _ => False

/-- The caller asks for the member `key`. -/
def askKey (fuel : Nat) (v : Addr) (key : Bytes) : M (Option Addr) := do
  let p ← callerText (key ++ [0])
  objGet fuel v p

/-- The caller deletes the member `key`. -/
def dropKey (fuel : Nat) (v : Addr) (key : Bytes) : M Bool := do
  let p ← callerText (key ++ [0])
  objDel fuel v p

theorem valueOf_append (key : Bytes) : ∀ ys zs : List (Bytes × Json),
    valueOf key (ys ++ zs) = (valueOf key ys).or (valueOf key zs)
  | [], _ => rfl
  | (k, t) :: ys, zs => by
    simp only [List.cons_append, valueOf]
    split
    · rfl
    · exact valueOf_append key ys zs

theorem valueOf_none {key : Bytes} : ∀ {ms : List (Bytes × Json)}, (∀ m ∈ ms, m.1 ≠ key) → valueOf key ms = none
  | [], _ => rfl
  | (k, t) :: ms, h => by
    rw [valueOf, if_neg (h _ (List.mem_cons_self ..))]
    exact valueOf_none fun m hm => h m (List.mem_cons_of_mem _ hm)

theorem valueOf_at {key : Bytes} {u : Json} : ∀ {ms : List (Bytes × Json)} {i : Nat}, ms[i]? = some (key, u) →
    (∀ (j : Nat) m, j < i → ms[j]? = some m → m.1 ≠ key) → valueOf key ms = some u
  | [], i, h, _ => by simp at h
  | (k, t) :: ms, 0, h, _ => by
    simp at h
    simp [valueOf, h]
  | (k, t) :: ms, i + 1, h, h' => by
    rw [valueOf, if_neg (h' 0 (k, t) (by omega) rfl)]
    exact valueOf_at (i := i) (by simpa using h) fun j m hj hm => h' (j + 1) m (by omega) (by simpa using hm)

section
variable {st st' : St} {P P' : Addr → Prop} {G G' : Graph} {v vv w A A' B a b f x : Addr} {t : Json} {ms : List (Bytes × Json)}

/-- C64, `zj_ObjGet` is the lookup of the map. -/
theorem C64_get (hv : Ready st P G v (some f) A) (hs : Shows st v (.obj ms)) (hk : ∀ m ∈ ms, (0 : Byte) ∉ m.1)
    {key : Bytes} (h0 : (0 : Byte) ∉ key) {fuel : Nat} (hf : ms.length < fuel) :
    ∃ r st', askKey fuel v key st = .ok (r, st') ∧ FoundAs st' r (valueOf key ms) := by
  have hR := hv.addC (d := key ++ [0])
  have hs' : Shows (st.addC (key ++ [0])) v (.obj ms) := hR.shows (hv.unf hs)
  obtain ⟨r, st', h1, h2⟩ := C27_objGet hR hs' hk hf (addC_cstr h0)
  refine ⟨r, st', h1, ?_⟩
  rcases h2 with ⟨rfl, _, h3⟩ | ⟨i, u, w, k, rfl, h3, h4, h5, _⟩
  · rw [valueOf_none h3]; trivial
  · rw [valueOf_at h3 h4]; exact h5

/-- C64, `zj_ObjAdd` of a value with key `k`: every other key has the value it had; `k` has the
value it had, or, if it had none, the value added. -/
theorem C64_add (hv : Ready st P G v (some f) A) (hx : Ready st P G vv (some x) A') (hs : Shows st v (.obj ms))
    (ht : Shows st vv t) {k : Bytes} (hk : G.keyOf x = some k) (he : EndRight G f)
    (hn : ∀ m ∈ ms, (0 : Byte) ∉ m.1) (hkn : (0 : Byte) ∉ k) :
    ∃ c st', (∀ F, objAdd (F + c) v vv st = .ok (true, st')) ∧
      ∀ (key : Bytes) (fuel : Nat), (0 : Byte) ∉ key → ms.length + 1 < fuel →
        ∃ r st2, askKey fuel v key st' = .ok (r, st2) ∧
          FoundAs st2 r ((valueOf key ms).or (if k = key then some t else none)) := by
  obtain ⟨c, st', P', G', h1, _, _, _, h2, h3, _⟩ := C29_objAdd hv hx hs ht hk he
  refine ⟨c, st', h1, fun key fuel h0 hf => ?_⟩
  obtain ⟨r, st2, h4, h5⟩ := C64_get h2 h3 (fun m hm => by
    rcases List.mem_append.1 hm with hm | hm
    · exact hn m hm
    · rw [List.mem_singleton.1 hm]; exact hkn) h0 (fuel := fuel) (by simpa using hf)
  exact ⟨r, st2, h4, by rw [valueOf_append] at h5; exact h5⟩

/-- C64: what was added is found, if the object had no such member. Partial: see
`C64_add_false` for the other case. -/
theorem C64_add_partial (hv : Ready st P G v (some f) A) (hx : Ready st P G vv (some x) A') (hs : Shows st v (.obj ms))
    (ht : Shows st vv t) {k : Bytes} (hk : G.keyOf x = some k) (he : EndRight G f)
    (hn : ∀ m ∈ ms, (0 : Byte) ∉ m.1) (hkn : (0 : Byte) ∉ k) (hfresh : ∀ m ∈ ms, m.1 ≠ k) :
    ∃ c st', (∀ F, objAdd (F + c) v vv st = .ok (true, st')) ∧
      (∀ fuel, ms.length + 1 < fuel → ∃ w st2, askKey fuel v k st' = .ok (some w, st2) ∧ Shows st2 w t) ∧
      ∀ (key : Bytes) (fuel : Nat), key ≠ k → (0 : Byte) ∉ key → ms.length + 1 < fuel →
        ∃ r st2, askKey fuel v key st' = .ok (r, st2) ∧ FoundAs st2 r (valueOf key ms) := by
  obtain ⟨c, st', h1, h2⟩ := C64_add hv hx hs ht hk he hn hkn
  refine ⟨c, st', h1, fun fuel hf => ?_, fun key fuel hne h0 hf => ?_⟩
  · obtain ⟨r, st2, h3, h4⟩ := h2 k fuel hkn hf
    rw [valueOf_none hfresh, if_pos rfl] at h4
    cases r with
    | none => exact h4.elim
    | some w => exact ⟨w, st2, h3, h4⟩
  · obtain ⟨r, st2, h3, h4⟩ := h2 key fuel h0 hf
    rw [if_neg (Ne.symm hne), Option.or_none] at h4
    exact ⟨r, st2, h3, h4⟩

/-- C64 is false: `zj_ObjAdd` succeeds on every object that has such a member already, and
`zj_ObjGet` goes on returning the old value. -/
theorem C64_add_false (hv : Ready st P G v (some f) A) (hx : Ready st P G vv (some x) A') (hs : Shows st v (.obj ms))
    (ht : Shows st vv t) {k : Bytes} (hk : G.keyOf x = some k) (he : EndRight G f)
    (hn : ∀ m ∈ ms, (0 : Byte) ∉ m.1) (hkn : (0 : Byte) ∉ k) {old : Json} (hold : valueOf k ms = some old) :
    ∃ c st', (∀ F, objAdd (F + c) v vv st = .ok (true, st')) ∧
      ∀ fuel, ms.length + 1 < fuel → ∃ w st2, askKey fuel v k st' = .ok (some w, st2) ∧ Shows st2 w old := by
  obtain ⟨c, st', h1, h2⟩ := C64_add hv hx hs ht hk he hn hkn
  refine ⟨c, st', h1, fun fuel hf => ?_⟩
  obtain ⟨r, st2, h3, h4⟩ := h2 k fuel hkn hf
  rw [hold] at h4
  cases r with
  | none => exact h4.elim
  | some w => exact ⟨w, st2, h3, h4⟩

/-- C64, `zj_ObjDel(v, key)`: every other key has the value it had; `key` has the value of the
next member of that name, if there is one. (`hok`: the link of the deleted member to the one
before it is right, see C32.) -/
theorem C64_del {ys zs : List (Bytes × Json)} {key : Bytes} {u : Json} {k : Addr} (hv : Ready st P G v (some f) A)
    (hs : Shows st v (.obj (ys ++ (key, u) :: zs))) (hfst : ∀ m ∈ ys, m.1 ≠ key)
    (hnul : ∀ m ∈ ys ++ (key, u) :: zs, (0 : Byte) ∉ m.1) {fuel : Nat}
    (hfuel : (ys ++ (key, u) :: zs).length < fuel) (hk : ∃ gf, G f = some gf ∧ gf.val.kids[ys.length]? = some k)
    (hok : ys = [] ∨ ∀ g, G k = some g → g.prevOK = true) :
    ∃ st', dropKey fuel v key st = .ok (true, st') ∧
      ∀ (key' : Bytes), (0 : Byte) ∉ key' →
        ∃ r st2, askKey fuel v key' st' = .ok (r, st2) ∧
          FoundAs st2 r (if key' = key then valueOf key zs else valueOf key' (ys ++ (key, u) :: zs)) := by
  have hR := hv.addC (d := key ++ [0])
  have hs' : Shows (st.addC (key ++ [0])) v (.obj (ys ++ (key, u) :: zs)) := hR.shows (hv.unf hs)
  have h0 : (0 : Byte) ∉ key := hnul (key, u) (by simp)
  obtain ⟨st', G1, h1, _, _, h2, h3, _⟩ := C32_objDel_partial hR hs' hfst hnul (addC_cstr h0) hfuel hk hok
  refine ⟨st', h1, fun key' h0' => ?_⟩
  obtain ⟨r, st2, h4, h5⟩ := C64_get h2 h3 (fun m hm => hnul m (by
    rcases List.mem_append.1 hm with hm | hm
    · exact List.mem_append_left _ hm
    · exact List.mem_append_right _ (List.mem_cons_of_mem _ hm))) h0' (fuel := fuel) (by
      simp only [List.length_append, List.length_cons] at hfuel ⊢; omega)
  refine ⟨r, st2, h4, ?_⟩
  split
  · next h =>
    subst h
    rw [valueOf_append, valueOf_none hfst] at h5
    simpa using h5
  · next h =>
    rw [valueOf_append] at h5 ⊢
    rw [valueOf, if_neg (Ne.symm h)]
    exact h5

/-- C64: a deleted member is gone, if its name occurred once. Partial: see `C64_del_false`. -/
theorem C64_del_partial {ys zs : List (Bytes × Json)} {key : Bytes} {u : Json} {k : Addr} (hv : Ready st P G v (some f) A)
    (hs : Shows st v (.obj (ys ++ (key, u) :: zs))) (hone : ∀ m ∈ ys ++ zs, m.1 ≠ key)
    (hnul : ∀ m ∈ ys ++ (key, u) :: zs, (0 : Byte) ∉ m.1) {fuel : Nat}
    (hfuel : (ys ++ (key, u) :: zs).length < fuel) (hk : ∃ gf, G f = some gf ∧ gf.val.kids[ys.length]? = some k)
    (hok : ys = [] ∨ ∀ g, G k = some g → g.prevOK = true) :
    ∃ st', dropKey fuel v key st = .ok (true, st') ∧ (∃ st2, askKey fuel v key st' = .ok (none, st2)) ∧
      ∀ (key' : Bytes), key' ≠ key → (0 : Byte) ∉ key' →
        ∃ r st2, askKey fuel v key' st' = .ok (r, st2) ∧ FoundAs st2 r (valueOf key' (ys ++ (key, u) :: zs)) := by
  obtain ⟨st', h1, h2⟩ := C64_del hv hs (fun m hm => hone m (List.mem_append_left _ hm)) hnul hfuel hk hok
  refine ⟨st', h1, ?_, fun key' hne h0 => ?_⟩
  · obtain ⟨r, st2, h3, h4⟩ := h2 key (hnul (key, u) (by simp))
    rw [if_pos rfl, valueOf_none fun m hm => hone m (List.mem_append_right _ hm)] at h4
    cases r with
    | none => exact ⟨st2, h3⟩
    | some w => exact h4.elim
  · obtain ⟨r, st2, h3, h4⟩ := h2 key' h0
    rw [if_neg hne] at h4
    exact ⟨r, st2, h3, h4⟩

/-- C64, `zj_ObjDel(k)` where there is no `k`: it returns false, and every key has the value it had. -/
theorem C64_del_absent {key : Bytes} (hv : Ready st P G v (some f) A) (hs : Shows st v (.obj ms)) (hno : ∀ m ∈ ms, m.1 ≠ key)
    (hnul : ∀ m ∈ ms, (0 : Byte) ∉ m.1) (h0 : (0 : Byte) ∉ key) {fuel : Nat} (hfuel : ms.length < fuel) :
    ∃ st', dropKey fuel v key st = .ok (false, st') ∧
      ∀ (key' : Bytes), (0 : Byte) ∉ key' → ∃ r st2, askKey fuel v key' st' = .ok (r, st2) ∧ FoundAs st2 r (valueOf key' ms) := by
  have hR := hv.addC (d := key ++ [0])
  have hs' : Shows (st.addC (key ++ [0])) v (.obj ms) := hR.shows (hv.unf hs)
  have h1 := (C32_missing hR).2.1 ms key hs' (addC_cstr h0) hnul hno hfuel
  exact ⟨_, (M.bind_ok (callerText_run _ _)).trans h1, fun key' h0' => C64_get hR hs' hnul h0' hfuel⟩

/-- C64 is false: when the name occurs again further on, `zj_ObjDel` succeeds and the object
still has a member of that name. -/
theorem C64_del_false {ys zs : List (Bytes × Json)} {key : Bytes} {u u' : Json} {k : Addr} (hv : Ready st P G v (some f) A)
    (hs : Shows st v (.obj (ys ++ (key, u) :: zs))) (hfst : ∀ m ∈ ys, m.1 ≠ key)
    (hnul : ∀ m ∈ ys ++ (key, u) :: zs, (0 : Byte) ∉ m.1) {fuel : Nat}
    (hfuel : (ys ++ (key, u) :: zs).length < fuel) (hk : ∃ gf, G f = some gf ∧ gf.val.kids[ys.length]? = some k)
    (hok : ys = [] ∨ ∀ g, G k = some g → g.prevOK = true) (htwo : valueOf key zs = some u') :
    ∃ st', dropKey fuel v key st = .ok (true, st') ∧
      ∃ w st2, askKey fuel v key st' = .ok (some w, st2) ∧ Shows st2 w u' := by
  obtain ⟨st', h1, h2⟩ := C64_del hv hs hfst hnul hfuel hk hok
  obtain ⟨r, st2, h3, h4⟩ := h2 key (hnul (key, u) (by simp))
  rw [if_pos rfl, htwo] at h4
  cases r with
  | none => exact h4.elim
  | some w => exact ⟨st', h1, w, st2, h3, h4⟩

end

/-! ### Programs -/

/-- The member `k` of `v` as text, `-` if there is none. -/
def memberText (v : Addr) (k : Bytes) (n : Nat) : M Bytes := do
  match ← askKey 99 v k with
  | none => return b!"-"
  | some w => readN (← stringify 99 w) n

/-- Adding "a":2 to {"a":1}: the answer stays 1. -/
theorem C64_add_false_program : ((do
    let (v, _) ← make 0 b!"{\"a\":1}"
    let (w, _) ← make 0 b!"2"
    let _ ← setKeyC w (← callerText b!"a\x00")
    let r ← objAdd 9 v w
    return (r, ← memberText v b!"a" 1, ← readN (← stringify 99 v) 13) : M _) (start fun _ => 0)).out =
    .ok (true, b!"1", b!"{\"a\":1,\"a\":2}") := by
  decide +kernel

/-- Deleting "a" from {"a":1,"a":2}: there is still an "a". -/
theorem C64_del_false_program : ((do
    let (v, _) ← make 0 b!"{\"a\":1,\"a\":2}"
    let r ← dropKey 9 v b!"a"
    return (r, ← memberText v b!"a" 1) : M _) (start fun _ => 0)).out = .ok (true, b!"2") := by
  decide +kernel

/-- Replacing the last member by deleting it and adding it anew dereferences null (C32). -/
theorem C64_replace_false : ((do
    let (v, _) ← make 0 b!"{\"a\":1,\"b\":2}"
    let (w, _) ← make 0 b!"3"
    let _ ← setKeyC w (← callerText b!"b\x00")
    let _ ← dropKey 9 v b!"b"
    objAdd 9 v w : M _) (start fun _ => 0)).out = .ub .nullDeref := by
  decide +kernel

/-- Names are compared as they are written: the member `"\u0061"` is not found as `a`, although
its unescaped key is `a`. -/
theorem C64_names_false : ((do
    let (v, _) ← make 0 b!"{\"\\u0061\":1}"
    let r ← askKey 9 v b!"a"
    let r' ← askKey 9 v b!"\\u0061"
    match r' with
    | none => return (r, b!"-")
    | some w =>
      match ← getUnEscapeKey w with
      | none => return (r, b!"-")
      | some q => return (r, ← readN q 2) : M _) (start fun _ => 0)).out = .ok (none, b!"a\x00") := by
  decide +kernel

/-- A map as one expects it: adding, deleting, asking. -/
example : ((do
    let (v, _) ← make 0 b!"{\"a\":1,\"b\":2}"
    let (w, _) ← make 0 b!"3"
    let _ ← setKeyC w (← callerText b!"c\x00")
    let r ← objAdd 9 v w
    let r' ← dropKey 9 v b!"a"
    return (r, r', ← memberText v b!"a" 1, ← memberText v b!"b" 1, ← memberText v b!"c" 1) : M _) (start fun _ => 0)).out =
    .ok (true, true, b!"-", b!"2", b!"3") := by
  decide +kernel

/-- The hypotheses of `C64_get` are met by every valid object. -/
example {ms : List (Bytes × Json)} (ht : (Json.obj ms).Valid) (slack : Nat → Nat) :
    ∃ st P G v a, Ready st P G v (some a) 0 ∧ Shows st v (.obj ms) := by
  obtain ⟨st, P, G, v, a, h, _⟩ := exists_example ht slack
  exact ⟨st, P, G, v, a, h.ready, h.ready.shows h.doc⟩

/-- Deleting a key that is not there. -/
example : ((do
    let (v, _) ← make 0 b!"{\"a\":1,\"b\":2}"
    let r ← dropKey 9 v b!"c"
    return (r, ← memberText v b!"a" 1, ← memberText v b!"b" 1) : M _) (start fun _ => 0)).out = .ok (false, b!"1", b!"2") := by
  decide +kernel

/-- The hypotheses of `C64_del_false` are met after parsing `{"a":null,"a":true}`. -/
example (slack : Nat → Nat) : ∃ st v st', dropKey 9 v b!"a" st = .ok (true, st') ∧
    ∃ w st2, askKey 9 v b!"a" st' = .ok (some w, st2) ∧ Shows st2 w (.bool true) := by
  have hv : (Json.obj [(b!"a", .null), (b!"a", .bool true)]).Valid :=
    have hk : IsStrBody b!"a" := .plain (by decide) (by decide) (by decide) .nil
    ⟨hk, trivial, hk, trivial, trivial⟩
  obtain ⟨st, P, G, v, a, h, _⟩ := exists_example hv slack
  have hs := h.ready.shows h.doc
  obtain ⟨gf, kids, h1, h2, h3⟩ := h.ready.obj hs
  have hl := h3.length
  obtain ⟨k, hk⟩ : ∃ k, kids[0]? = some k := by
    cases kids with
    | nil => cases hl
    | cons k _ => exact ⟨k, rfl⟩
  obtain ⟨st', h4⟩ := C64_del_false (ys := []) (zs := [(b!"a", .bool true)]) h.ready hs (fun m hm => by cases hm) (by decide)
    (fuel := 9) (by decide) ⟨gf, h1, by rw [h2]; exact hk⟩ (.inl rfl) rfl
  exact ⟨st, v, st', h4⟩

end ZJ
