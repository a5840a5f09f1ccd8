import Verif.PropPath
import Verif.PropSweep
import Verif.HistGet

/-!
C77: a document that is edited again and again. A program parses a document and then performs
any number of requests on it, each at the end of a path: write a value there, append a value to
the array there (`zj_ArrayAdd` or `zj_ArrayAddFast`), append a member to the object there
(`zj_ObjAdd` or `zj_ObjAddFast`), delete a child, rename the value there, print it, count its
children, append a copy of one part of the document (or of a member, with its key) to another
part, which may lie within the first. The requests come in any order and with any paths, so also
to places made by earlier requests. The answers and the text printed at the end are those of the specification, which
edits the JSON value and knows no memory.
-/

namespace ZJ

/-! ### The specification -/

/-- A request. `b` is the JSON text of `u` the program is given; `fast`: the Fast function. -/
inductive Deed where
  /-- put `u` at the end of the path -/
  | put (path : List Turn) (u : Json) (b : Bytes)
  /-- append `u` to the array at the end of the path -/
  | append (fast : Bool) (path : List Turn) (u : Json) (b : Bytes)
  /-- append the member `key: u` to the object at the end of the path -/
  | member (fast : Bool) (path : List Turn) (key : Bytes) (u : Json) (b : Bytes)
  /-- delete the element `i` of the array at the end of the path -/
  | delete (path : List Turn) (i : Nat)
  /-- delete the first member `key` of the object at the end of the path -/
  | unset (path : List Turn) (key : Bytes)
  /-- give the member at the end of the path another name -/
  | rename (path : List Turn) (key : Bytes)
  /-- append a copy of the value at the end of the path `src` to the array at the end of the path -/
  | dup (path : List Turn) (src : List Turn)
  /-- append a copy of the member at the end of the path `src` to the object at the end of the path -/
  | share (path : List Turn) (src : List Turn)
  /-- print the value at the end of the path -/
  | look (path : List Turn)
  /-- the number of children of the value at the end of the path -/
  | size (path : List Turn)

def Deed.path : Deed → List Turn
  | put p _ _ | append _ p _ _ | member _ p _ _ _ | delete p _ | unset p _ | rename p _ | dup p _ | share p _ | look p | size p => p

inductive Answer where
  | did (b : Bool)
  | text (s : Option Bytes)
  | count (n : Option Nat)
  deriving DecidableEq

/-- The answer if the path leads nowhere. -/
def Deed.refuse : Deed → Answer
  | look _ => .text none
  | size _ => .count none
  | _ => .did false

/-- The member of an object that is at the place `r`, with its key. -/
def Json.memberOf (t : Json) (r : List Nat) : Option (Bytes × Json) :=
  match t.at r.dropLast with
  | some (.obj ms) => ms[r.getLastD 0]?
  | _ => none

/-- The answer and the document afterwards, if the path leads to the place `q` of the document
`t` and the value there is `u`. -/
def Deed.act (t : Json) (q : List Nat) : Deed → Json → Answer × Json
  | put _ w _, _ => (.did true, t.replace q w)
  | append _ _ w _, .arr xs => (.did true, t.replace q (.arr (xs ++ [w])))
  | member _ _ k w _, .obj ms => (.did true, t.replace q (.obj (ms ++ [(k, w)])))
  | delete _ i, .arr xs => if i < xs.length then (.did true, t.replace q (.arr (xs.eraseIdx i))) else (.did false, t)
  | unset _ key, .obj ms =>
    match memberAt key ms with
    | some (i, _) => (.did true, t.replace q (.obj (ms.eraseIdx i)))
    | none => (.did false, t)
  | rename _ key, _ =>
    match t.at q.dropLast with
    | some (.obj ms) => (.did true, t.replace q.dropLast (.obj (ms.modify (q.getLastD 0) fun m => (key, m.2))))
    | _ => (.did false, t)
  | dup _ src, .arr xs =>
    match (t.placeOf src).bind fun r => t.at r with
    | some w => (.did true, t.replace q (.arr (xs ++ [w])))
    | none => (.did false, t)
  | share _ src, .obj ms =>
    match (t.placeOf src).bind fun r => t.memberOf r with
    | some m => (.did true, t.replace q (.obj (ms ++ [m])))
    | none => (.did false, t)
  | look _, u => (.text (some u.print), t)
  | size _, u => (.count (some u.items.length), t)
  | _, _ => (.did false, t)

/-- The answer and the document afterwards. -/
def Deed.spec (e : Deed) (t : Json) : Answer × Json :=
  match t.placeOf e.path with
  | none => (e.refuse, t)
  | some q =>
    match t.at q with
    | none => (e.refuse, t)
    | some u => e.act t q u

/-- The answers to a list of requests and the document at the end. -/
def specAll : List Deed → Json → List Answer × Json
  | [], t => ([], t)
  | e :: es, t => ((e.spec t).1 :: (specAll es (e.spec t).2).1, (specAll es (e.spec t).2).2)

/-- The texts of a request are what they should be: keys without NUL on the path, `b` a JSON
text of `u`, the key of a new member a string body that `zj_SetKey` takes (C43). -/
def Deed.OK (e : Deed) : Prop :=
  Sayable e.path ∧
  match e with
  | put _ u b | append _ _ u b => JText u b
  | member _ _ k u b => JText u b ∧ IsSetBody k
  | unset _ key => (0 : Byte) ∉ key
  | rename p key => p ≠ [] ∧ IsSetBody key
  | dup _ src => Sayable src
  | share _ src => src ≠ [] ∧ Sayable src
  | _ => True

/-- What is deleted is the first child, or does not exist (the links that `zj_Move` leaves behind
after taking out another child are wrong, C31 and C32). -/
def Deed.Fits (t : Json) : Deed → Prop
  | delete p i => ∀ q xs, t.placeOf p = some q → t.at q = some (.arr xs) → i = 0 ∨ xs.length ≤ i
  | unset p key => ∀ q ms i u, t.placeOf p = some q → t.at q = some (.obj ms) → memberAt key ms = some (i, u) → i = 0
  | _ => True

/-- Every request of the list is in order when its turn comes. -/
def AllFit : List Deed → Json → Prop
  | [], _ => True
  | e :: es, t => e.OK ∧ e.Fits t ∧ AllFit es (e.spec t).2

/-! ### The program -/

/-- A new value of the allocator with the document of the text `b`. -/
def fresh (A : Nat) (b : Bytes) : M Addr := do
  let w ← newValue A
  let p ← callerText (b ++ [0])
  let _ ← parse w p
  return w

/-- The value to be added is made first. -/
def Deed.prepare (A : Nat) (v : Addr) : Deed → M Addr
  | append _ _ _ b => fresh A b
  | member _ _ key _ b => do
    let w ← fresh A b
    let k ← callerText (key ++ [0])
    let _ ← setKeyC w k
    return w
  | _ => return v

/-- The call at the value `x` found at the end of the path. -/
def Deed.doIt (fuel : Nat) (w : Addr) : Deed → Addr → M Answer
  | put _ _ b, x => do
    let p ← callerText (b ++ [0])
    return .did (← parse x p)
  | append true _ _ _, x => do return .did (← arrayAddFast x w)
  | append false _ _ _, x => do return .did (← arrayAdd fuel x w)
  | member true _ _ _ _, x => do return .did (← objAddFast x w)
  | member false _ _ _ _, x => do return .did (← objAdd fuel x w)
  | delete _ i, x => do return .did (← arrayDel fuel x i)
  | unset _ key, x => do
    let p ← callerText (key ++ [0])
    return .did (← objDel fuel x p)
  | rename _ key, x => do
    let p ← callerText (key ++ [0])
    return .did (← setKeyC x p)
  | dup _ src, x => do
    match ← goTo fuel src w with
    | none => return .did false
    | some z => return .did (← arrayAdd fuel x z)
  | share _ src, x => do
    match ← goTo fuel src w with
    | none => return .did false
    | some z => return .did (← objAdd fuel x z)
  | look _, x => do
    let s ← stringify fuel x
    return .text (← readC (some s))
  | size _, x => do return .count (some (← sizeOf x))

def Deed.run (fuel A : Nat) (v : Addr) (e : Deed) : M Answer := do
  let w ← e.prepare A v
  match ← goTo fuel e.path v with
  | none => return e.refuse
  | some x => e.doIt fuel w x

def runAll (fuel A : Nat) (v : Addr) : List Deed → M (List Answer)
  | [] => return []
  | e :: es => do
    let r ← e.run fuel A v
    let rs ← runAll fuel A v es
    return r :: rs

/-! ### The proof -/

section
variable {st st' st1 : St} {P P' : Addr → Prop} {G G' : Graph} {v w A B a k x y f : Addr} {t u : Json} {b : Bytes} {p : SPtr}
  {q : List Nat} {xs : List Json} {ms : List (Bytes × Json)}

/-- What is below a node of a part of the store that is closed. -/
theorem unf_reach {g : Graph} (hle : g.le G) (h : Reach G k x) : ∀ t, Unf g k t → (g x).isSome := by
  induction h with
  | refl => intro t hu; obtain ⟨h1, _⟩ := hu; rw [h1]; rfl
  | @step k gn c x h1 h2 _ ih =>
    intro t hu
    obtain ⟨h3, h4⟩ := hu
    have := hle _ _ h3
    rw [h1] at this; cases this
    generalize gn.val = gv at h2 h4
    cases h4 with
    | scalar hs => cases gv <;> first | cases hs; done | cases h2
    | con hi =>
      obtain ⟨_, t', _, hu⟩ := hi.mem h2
      exact ih t' hu

theorem EditAt.some {r : Addr} (h : EditAt G G' r t) (hb : (G x).isSome) : (G' x).isSome := by
  by_cases e : x = r
  · subst e
    obtain ⟨h1, _⟩ := h.doc
    rw [h1]; rfl
  · obtain ⟨gx, hx⟩ := Option.isSome_iff_exists.1 hb
    obtain ⟨_, h1, _⟩ := h.val x gx e hx
    rw [h1]; rfl

/-- Parsing, and what it does to the links, the other nodes and the other handles. -/
theorem parse_grow {x : Option Addr} (h : Ready st P G v x A) (hs : CStr st p b) (ht : JText t b) :
    ∃ st' P' G', parse v p st = .ok (true, st') ∧ Ready st' P' G' v (some (rootOf st x)) A ∧ Shows st' v t ∧ (Tidy G → Tidy G') ∧
      Frame (· = rootOf st x) (· = v) (fun _ => False) st st' ∧
      (∀ c gc, c ≠ rootOf st x → G c = some gc → G' c = some gc) ∧
      (∀ c, Reach G' (rootOf st x) c → c = rootOf st x ∨ st.nn ≤ c) ∧
      ∃ gn, G' (rootOf st x) = some gn ∧ gn.key = (baseNode G x).key ∧ gn.par = (baseNode G x).par := by
  obtain ⟨st', gv, g, h1, h2, h3, h4, h5, h6, h7, _, h8, h9⟩ := parse_accept h.inv h.val h.node hs ht
  have hR : Ready st' _ _ v (some (rootOf st x)) A := ⟨h2, h.cok.frame h.inv.ok h7 h5, h4, fun a ha => by cases ha; simp [Graph.plant]⟩
  refine ⟨st', _, _, h1, hR, hR.shows h3, fun hT => ?_, h7, ?_, ?_, ?_⟩
  · intro a y ha
    unfold Graph.plant at ha
    by_cases e : a = rootOf st x
    · subst e
      simp only [Graph.set_same, Option.some.injEq] at ha; subst ha
      refine ⟨.inr rfl, ?_⟩
      show (baseNode G x).prevOK = true
      cases x with
      | none => rfl
      | some a =>
        show ((G a).getD _).prevOK = true
        cases hg : G a with
        | none => rfl
        | some g => exact (hT a g hg).2
    · rw [Graph.set_ne _ _ e, Graph.or_apply] at ha
      cases hgc : g a with
      | none => rw [hgc] at ha; exact hT a y (by simpa using ha)
      | some z =>
        rw [hgc] at ha
        obtain rfl : z = y := by simpa using ha
        obtain ⟨q1, q2, _⟩ := h8 a z hgc
        exact ⟨.inr q2, q1⟩
  · intro c gc hc hg
    unfold Graph.plant
    rw [Graph.set_ne _ _ hc, Graph.or_apply]
    cases hgc : g c with
    | none => simpa using hg
    | some y => have := h6 c y hgc; have := h.inv.lt hg; omega
  · intro c hr
    cases hr with
    | refl => exact .inl rfl
    | step e1 e2 e3 =>
      right
      simp only [Graph.plant, Graph.set_same, Option.some.injEq] at e1
      subst e1
      have e2 : _ ∈ gv.kids := e2
      cases h9 with
      | scalar hs => cases gv <;> first | cases hs; done | cases e2
      | con hi =>
        obtain ⟨_, t', _, hu⟩ := hi.mem e2
        have := unf_reach (g := g) (fun b y hb => by
          unfold Graph.plant
          rw [Graph.set_ne _ _ (h6 b y hb).2, Graph.or_apply, hb]
          rfl) e3 t' hu
        obtain ⟨y, hy⟩ := Option.isSome_iff_exists.1 this
        exact (h6 c y hy).1
  · exact ⟨(baseNode G x).put gv, by simp [Graph.plant], rfl, rfl⟩

/-- Another handle after a parse. -/
theorem Ready.beside (hw : Ready st P G w (some k) B) (hv : Ready st' P' G' v (some a) A) (hne : w ≠ v)
    (hf : Frame S (· = v) C st st') (hn : (G' k).isSome) : Ready st' P' G' w (some k) B :=
  ⟨hv.inv, hv.cok, by rw [hf.vals w (hw.inv.ok.val_lt hw.val) hne]; exact hw.val, fun c hc => by cases hc; exact hn⟩

/-- A new value with the document of a text; the documents there were stay. -/
theorem fresh_run (h : Ready st P G v (some a) A) (hT : Tidy G) (hs : Shows st v t) (hu : JText u b) :
    ∃ w n st' P' G', fresh A b st = .ok (w, st') ∧ Ready st' P' G' w (some n) A ∧ Shows st' w u ∧ Tidy G' ∧
      Ready st' P' G' v (some a) A ∧ Shows st' v t ∧ w ≠ v ∧ n ≠ a ∧
      (∀ c, Reach G' a c → ¬ Reach G' n c) ∧ ∃ gn, G' n = some gn ∧ gn.par = none := by
  have hu1 : Unchanged st (st.addV A none) := unch_addV
  have ho : StOK (st.addV A none) := h.inv.ok.addV h.alloc
  have hv1 := h.unchanged hu1 ho
  have hw1 : Ready (st.addV A none) P G st.nv none A :=
    ⟨hv1.inv, hv1.cok, by simp [St.addV, upd], fun _ h => by cases h⟩
  have hw2 := hw1.addC (d := b ++ [0])
  have hv2 := hv1.addC (d := b ++ [0])
  obtain ⟨st', P', G', h1, h2, h3, h4, h5, h6, h9, gn, h7, _, h8⟩ := parse_grow hw2 (addC_cstr hu.no_nul) hu
  have hlt := h.inv.ok.val_lt h.val
  have hne : v ≠ st.nv := by omega
  obtain ⟨ga, hga⟩ := Option.isSome_iff_exists.1 (h.node a rfl)
  have hal := h.inv.lt hga
  have hna : a ≠ st.nn := by omega
  have hv3 := hv2.beside h2 hne h5 (by rw [h6 a ga hna hga]; rfl)
  have hle : G.le G' := fun c gc hc => h6 c gc (by
    have := h.inv.lt hc
    show c ≠ st.nn
    omega) hc
  refine ⟨st.nv, st.nn, st', P', G', ?_, h2, h3, h4 hT, hv3, ?_, hne.symm, hna.symm, ?_, gn, h7, h8⟩
  · unfold fresh newValue
    mstep newVal_run h.alloc
    mstep callerText_run _ _
    mstep h1
    rfl
  · exact hv3.shows ((h.unf hs).mono hle)
  · intro c h1 h2
    have h3 := unf_reach hle h1 t (h.unf hs)
    obtain ⟨gc, hgc⟩ := Option.isSome_iff_exists.1 h3
    have h4 := h.inv.lt hgc
    have h5 : c = st.nn ∨ st.nn ≤ c := h9 c h2
    omega

/-- Giving a new value a key. -/
theorem setKey_root {key : Bytes} {n : Addr} {gn : GNode} (hw : Ready st P G w (some n) A) (hv : Ready st P G v (some a) A) (hT : Tidy G)
    (hws : Shows st w u) (hvs : Shows st v t) (hn : G n = some gn) (hp : gn.par = none) (hne : w ≠ v) (hna : n ≠ a)
    (hk : IsSetBody key) (hc : CStr st p key) :
    ∃ st' P' G', setKeyC w p st = .ok (true, st') ∧ Ready st' P' G' w (some n) A ∧ Shows st' w u ∧ Tidy G' ∧
      Ready st' P' G' v (some a) A ∧ Shows st' v t ∧ G'.keyOf n = some key ∧
      (∀ b c, Reach G' b c → Reach G b c) ∧ ∃ gn', G' n = some gn' ∧ gn'.par = none := by
  obtain ⟨st', h1, h2⟩ := (setKeyC_run hw.inv hw.val hw.node hc).1 hk fun b gb f e hb hf => by
    cases e; rw [hn] at hb; cases hb; rw [hp] at hf; cases hf
  have hb : baseNode G (some n) = gn := by simp [baseNode, hn]
  have hr : rootOf st (some n) = n := rfl
  have hi := h2.inv
  have hv2 := h2.vals
  have hfr := h2.frame
  rw [hb, hr] at hi
  rw [hr] at hv2
  have hR : Ready st' _ _ w (some n) A := ⟨hi, h2.cok hw.cok, hv2, fun b hb => by cases hb; simp⟩
  obtain ⟨ga, hga⟩ := Option.isSome_iff_exists.1 (hv.node a rfl)
  have hV := hv.beside hR hne.symm hfr (by rw [Graph.set_ne _ _ hna.symm, hga]; rfl)
  refine ⟨st', _, _, h1, hR, hR.shows ((hw.unf hws).set_top hn rfl), ?_, hV, hV.shows ((hv.unf hvs).set_ne ?_), by simp [Graph.keyOf],
    fun b c h => Reach.set_same (gn' := { gn with key := some key }) hn rfl h, _, Graph.set_same _ _ _, hp⟩
  · intro b y hy
    rw [Graph.set_apply] at hy
    split at hy
    · cases hy; exact hT n gn hn
    · exact hT b y hy
  · intro hr
    exact hna (hw.inv.above_root hn hp hr).symm

/-- The value at a place of a valid document. -/
theorem at_valid : ∀ {q : List Nat} {t u : Json}, t.Valid → t.at q = some u → u.Valid
  | [], t, u, h, e => by simp [Json.at] at e; exact e ▸ h
  | i :: q, .arr xs, u, h, e => by
    simp only [Json.at, Option.bind_eq_some_iff] at e
    obtain ⟨y, h1, h2⟩ := e
    exact at_valid (valid_elem h _ (List.mem_of_getElem? h1)) h2
  | i :: q, .obj ms, u, h, e => by
    simp only [Json.at, Option.bind_eq_some_iff] at e
    obtain ⟨y, h1, h2⟩ := e
    exact at_valid (valid_member h _ (List.mem_of_getElem? h1)) h2
  | _ :: _, .null, _, _, e => by simp [Json.at] at e
  | _ :: _, .bool _, _, _, e => by simp [Json.at] at e
  | _ :: _, .num _, _, _, e => by simp [Json.at] at e
  | _ :: _, .str _, _, _, e => by simp [Json.at] at e

theorem validElems_snoc (hu : u.Valid) : ∀ {xs : List Json}, Json.ValidElems xs → Json.ValidElems (xs ++ [u])
  | [], _ => ⟨hu, trivial⟩
  | _ :: _, h => ⟨h.1, validElems_snoc hu h.2⟩

theorem validMembers_snoc {key : Bytes} (hk : IsStrBody key) (hu : u.Valid) : ∀ {ms : List (Bytes × Json)}, Json.ValidMembers ms →
    Json.ValidMembers (ms ++ [(key, u)])
  | [], _ => ⟨hk, hu, trivial⟩
  | (_, _) :: _, h => ⟨h.1, h.2.1, validMembers_snoc hk hu h.2.2⟩


theorem validElems_erase : ∀ {xs : List Json} {i : Nat}, Json.ValidElems xs → Json.ValidElems (xs.eraseIdx i)
  | [], _, _ => trivial
  | _ :: _, 0, h => h.2
  | _ :: _, _ + 1, h => ⟨h.1, validElems_erase h.2⟩

theorem validMembers_erase : ∀ {ms : List (Bytes × Json)} {i : Nat}, Json.ValidMembers ms → Json.ValidMembers (ms.eraseIdx i)
  | [], _, _ => trivial
  | (_, _) :: _, 0, h => h.2.2
  | (_, _) :: _, _ + 1, h => ⟨h.1, h.2.1, validMembers_erase h.2.2⟩

theorem validMembers_rename {key : Bytes} (hk : IsStrBody key) : ∀ {ms : List (Bytes × Json)} {i : Nat}, Json.ValidMembers ms →
    Json.ValidMembers (ms.modify i fun m => (key, m.2))
  | [], i, _ => by simp [Json.ValidMembers]
  | (_, _) :: _, 0, h => ⟨hk, h.2.1, h.2.2⟩
  | (_, _) :: _, _ + 1, h => by
    rw [List.modify_succ_cons]
    exact ⟨h.1, h.2.1, validMembers_rename hk h.2.2⟩

theorem valid_named : ∀ {ms : List (Bytes × Json)} {m : Bytes × Json}, Json.ValidMembers ms → m ∈ ms → IsStrBody m.1 ∧ m.2.Valid
  | [], _, _, h => by cases h
  | (_, _) :: _, m, h, hm => by
    rcases List.mem_cons.1 hm with rfl | hm
    · exact ⟨h.1, h.2.1⟩
    · exact valid_named h.2.2 hm

/-- A request keeps the document valid. -/
theorem Deed.spec_valid {e : Deed} (he : e.OK) (ht : t.Valid) : (e.spec t).2.Valid := by
  unfold Deed.spec
  split
  · exact ht
  · rename_i q hq
    split
    · exact ht
    · rename_i z h1
      have hz := at_valid ht h1
      obtain ⟨_, he⟩ := he
      cases e with
      | put p u b => exact replace_valid he.valid ht
      | append f p u b =>
        cases z <;> first | exact ht | exact replace_valid (u := .arr _) (validElems_snoc he.valid hz) ht
      | member f p k u b =>
        cases z <;> first | exact ht | exact replace_valid (u := .obj _) (validMembers_snoc he.2.body he.1.valid hz) ht
      | delete p i =>
        cases z <;> first | exact ht | skip
        simp only [Deed.act]
        split
        · exact replace_valid (u := .arr _) (validElems_erase hz) ht
        · exact ht
      | unset p key =>
        cases z <;> first | exact ht | skip
        simp only [Deed.act]
        split
        · exact replace_valid (u := .obj _) (validMembers_erase hz) ht
        · exact ht
      | rename p key =>
        simp only [Deed.act]
        split
        · rename_i ms h2
          exact replace_valid (u := .obj _) (validMembers_rename he.2.body (at_valid (t := t) ht h2)) ht
        · exact ht
      | dup p src =>
        cases z <;> first | exact ht | skip
        simp only [Deed.act]
        split
        · rename_i w hw
          obtain ⟨q', _, h2⟩ := Option.bind_eq_some_iff.1 hw
          exact replace_valid (u := .arr _) (validElems_snoc (at_valid ht h2) hz) ht
        · exact ht
      | share p src =>
        cases z <;> first | exact ht | skip
        simp only [Deed.act]
        split
        · rename_i m hm
          obtain ⟨q', _, h2⟩ := Option.bind_eq_some_iff.1 hm
          unfold Json.memberOf at h2
          split at h2
          · rename_i ns h3
            obtain ⟨g1, g2⟩ := valid_named (at_valid ht h3) (List.mem_of_getElem? h2)
            exact replace_valid (u := .obj _) (validMembers_snoc g1 g2 hz) ht
          · cases h2
        · exact ht
      | look p => exact ht
      | size p => exact ht

/-- The state between two requests. -/
structure Kempt (st : St) (v a A : Addr) (t : Json) : Prop where
  ready : ∃ P G, Ready st P G v (some a) A ∧ Tidy G
  shows : Shows st v t
  valid : t.Valid

/-- Following the path and then doing something at the value found. -/
theorem at_path {pth : List Turn} {no : Answer} {g : Nat → Addr → M Answer} {sp : List Nat → Json → Answer × Json}
    (hR : Ready st P G v (some a) A) (hT : Tidy G) (hs : Shows st v t) (hv : t.Valid) (hk : Sayable pth)
    (op : ∀ {st1 y k u q}, t.placeOf pth = some q → Unchanged st st1 → Ready st1 P G v (some a) A → Shows st1 v t →
      Ready st1 P G y (some k) A → Shows st1 y u → t.at q = some u → PathTo G a q k →
      ∃ c st', (∀ fuel, c ≤ fuel → g fuel y st1 = .ok ((sp q u).1, st')) ∧ (∃ P' G', Ready st' P' G' v (some a) A ∧ Tidy G') ∧
        Shows st' v (sp q u).2) {r : Answer × Json}
    (hr : r = match t.placeOf pth with
      | none => (no, t)
      | some q => match t.at q with
        | none => (no, t)
        | some u => sp q u) :
    ∃ c st', (∀ fuel, c ≤ fuel → (do
        match ← goTo fuel pth v with
        | none => return no
        | some x => g fuel x : M _) st = .ok (r.1, st')) ∧
      (∃ P' G', Ready st' P' G' v (some a) A ∧ Tidy G') ∧ Shows st' v r.2 := by
  obtain ⟨n, hn⟩ := wide_exists t
  obtain ⟨o, st1, h1, g1, g2, g3⟩ := C69_goTo hR hs hv (hn n (Nat.le_refl n)) hk
  have gs := g2.shows (hR.unf hs)
  cases hq : t.placeOf pth with
  | none =>
    rw [hq] at g3 hr; subst g3 hr
    refine ⟨n, st1, fun fuel hf => ?_, ⟨P, G, g2, hT⟩, gs⟩
    mstep (goTo_mono hf pth v).ok h1
    rfl
  | some q =>
    rw [hq] at g3 hr
    obtain ⟨y, k, u, rfl, h4, h5, h6, h7⟩ := g3
    simp only [h4] at hr
    subst hr
    obtain ⟨c, st', e1, e2, e3⟩ := op hq g1 g2 gs h6 h5 h4 h7
    refine ⟨n + c, st', fun fuel hf => ?_, e2, e3⟩
    mstep (goTo_mono (by omega) pth v).ok h1
    exact e1 fuel (by omega)

/-- `zj_Parse` into a value of the document. -/
theorem op_put (hv : Ready st P G v (some a) A) (hvs : Shows st v t) (hT : Tidy G) (hy : Ready st P G y (some k) A)
    (hp : PathTo G a q k) (hu : JText u b) :
    ∃ st' P' G', (do let p ← callerText (b ++ [0]); return .did (← parse y p) : M Answer) st = .ok (.did true, st') ∧
      Ready st' P' G' v (some a) A ∧ Tidy G' ∧ Shows st' v (t.replace q u) := by
  obtain ⟨st', P', G', e1, e2, e3, e4, e5, e6, _, gn, e7, e8, _⟩ := parse_grow (hy.addC (d := b ++ [0])) (addC_cstr hu.no_nul) hu
  have hr : rootOf (st.addC (b ++ [0])) (some k) = k := rfl
  rw [hr] at e2 e6 e7
  obtain ⟨gk, hgk⟩ := Option.isSome_iff_exists.1 (hy.node k rfl)
  have hkey : gn.key = gk.key := by rw [e8]; simp [baseNode, hgk]
  have hd : EditAt G G' k u := by
    refine ⟨fun c gc hc hg => ⟨gc, e6 c gc hc hg, rfl⟩, fun c gc k' gk' hc hg hm hgk' => ?_, e2.unf e3⟩
    by_cases hck : k' = k
    · subst hck
      rw [hgk] at hgk'; cases hgk'
      exact ⟨gn, e7, hkey⟩
    · exact ⟨gk', e6 k' gk' hck hgk', rfl⟩
  have hV : Ready st' P' G' v (some a) A := by
    by_cases hne : v = y
    · subst hne
      have e := hy.val.symm.trans hv.val
      simp at e; subst e
      exact e2
    · exact (hv.addC (d := b ++ [0])).beside e2 hne e5 (hd.some (hv.node a rfl))
  refine ⟨st', P', G', ?_, hV, e4 hT, (hd.shows hv hV hvs).2 q hp⟩
  mstep callerText_run _ _
  mstep e1
  rfl

/-- Adding a root with `zj_ArrayAddFast`. -/
theorem arrayAddFast_root {gx : GNode} (hy : Ready st P G y (some f) A) (hw : Ready st P G w (some x) A) (hs : Shows st y (.arr xs))
    (ht : Shows st w t) (hT : Tidy G) (hgx : G x = some gx) (hp : gx.par = none) (hn : ¬ Reach G x f) :
    ∃ st' G', arrayAddFast y w st = .ok (true, st') ∧ Did (· = w) (fun _ => False) st st' P P G G' ∧
      EditAt G G' f (.arr (xs ++ [t])) ∧ Tidy G' := by
  obtain ⟨gf, kids, ms, hf, hgf, hi, hms⟩ := hy.arr hs
  have hfx : f ≠ x := fun e => hn (e ▸ .refl)
  have he : kids = [] ∨ gf.endOK = true := (hT f gf hf).1.imp (by rw [hgf]; exact id) id
  obtain ⟨st', hrun, hD, _⟩ := arrayAddFast_run hy.inv hy.val hw.val hf hgf (.root hgx hp) hgx ⟨⟨gf, hf, hgf, he⟩, hn⟩
  obtain ⟨st2, _, hD2, _⟩ := clearKey_run hy.inv hgx hp
  have huf : Unf G f (mkCon false ms) := .mk hf (by rw [hgf]; exact .con hi)
  obtain ⟨hE, _⟩ := hD2.inv.attach_edit (f := f) (x := x) (o := false) (kids := kids)
    (by rw [Graph.set_ne _ _ hfx]; exact hf) hgf (Graph.set_same _ _ _)
    (fun h => hn (Reach.set_same (gn' := { gx with key := none }) hgx rfl h)) (key := []) ⟨rfl, rfl⟩
    (huf.set_ne (fun h => hfx (hy.inv.above_root hgx hp h))) (Unf.set_top (hw.unf ht) hgx rfl)
  have hE' := hE.rekey hy.inv hgx hp
  have hm : mkCon false (ms ++ [([], t)]) = .arr (xs ++ [t]) := by simp [mkCon, hms]
  rw [hm] at hE'
  refine ⟨st', _, hrun, hD, hE', attach_tidy ?_⟩
  intro b z hz
  rw [Graph.set_apply] at hz
  split at hz
  · cases hz; exact hT x gx hgx
  · exact hT b z hz

/-- Adding a root with `zj_ObjAddFast`. -/
theorem objAddFast_root {gx : GNode} {key : Bytes} (hy : Ready st P G y (some f) A) (hw : Ready st P G w (some x) A)
    (hs : Shows st y (.obj ms)) (ht : Shows st w t) (hT : Tidy G) (hgx : G x = some gx) (hp : gx.par = none)
    (hk : G.keyOf x = some key) (hn : ¬ Reach G x f) :
    ∃ st' G', objAddFast y w st = .ok (true, st') ∧ Did (· = w) (fun _ => False) st st' P P G G' ∧
      EditAt G G' f (.obj (ms ++ [(key, t)])) ∧ Tidy G' := by
  obtain ⟨gf, kids, hf, hgf, hi⟩ := hy.obj hs
  have he : kids = [] ∨ gf.endOK = true := (hT f gf hf).1.imp (by rw [hgf]; exact id) id
  have hkx : gx.key = some key := by simpa [Graph.keyOf, hgx] using hk
  obtain ⟨st', hrun, hD, _⟩ := objAddFast_run hy.inv hy.val hw.val hf hgf hgx (by simp [hkx]) (.root hgx hp) ⟨⟨gf, hf, hgf, he⟩, hn⟩
  have huf : Unf G f (mkCon true ms) := .mk hf (by rw [hgf]; exact .con hi)
  obtain ⟨hE, _⟩ := hy.inv.attach_edit (f := f) (x := x) (o := true) (kids := kids) hf hgf hgx hn (key := key) hkx huf (hw.unf ht)
  exact ⟨st', _, hrun, hD, hE, attach_tidy hT⟩

theorem PathTo.snoc : ∀ {q : List Nat} {a k : Addr}, PathTo G a q k → q ≠ [] →
    ∃ c gc, PathTo G a q.dropLast c ∧ G c = some gc ∧ gc.val.kids[q.getLastD 0]? = some k
  | _, a, _, .nil, h => absurd rfl h
  | [i], a, _, .cons h1 h2 h3, _ => by
    cases h3
    exact ⟨a, _, .nil, h1, h2⟩
  | i :: j :: q, a, k, .cons h1 h2 h3, _ => by
    obtain ⟨c, gc, e1, e2, e3⟩ := PathTo.snoc h3 (by simp)
    exact ⟨c, gc, .cons h1 h2 e1, e2, by simpa using e3⟩

/-- The key of a value of the document is that of the member it is. -/
theorem PathTo.named (hp : PathTo G a q k) (hq : q ≠ []) (hu : Unf G a t) :
    (∃ m, t.memberOf q = some m ∧ G.keyOf k = some m.1 ∧ Unf G k m.2) ∨ t.memberOf q = none ∧ G.keyOf k = none := by
  obtain ⟨c, gc, h1, h2, h3⟩ := hp.snoc hq
  obtain ⟨uc, h4, h5⟩ := h1.at hu
  cases hgv : gc.val with
  | con o ks =>
    obtain ⟨ms, rfl, hi⟩ := h4.con_inv h2 hgv
    rw [hgv] at h3
    rcases hi.at (q.getLastD 0) with ⟨e1, _⟩ | ⟨k', gk, key, u, e1, e2, e3, e4, e5⟩
    · rw [show ks[q.getLastD 0]? = some k from h3] at e1; cases e1
    · rw [show ks[q.getLastD 0]? = some k from h3] at e1; cases e1
      cases o with
      | false =>
        refine .inr ⟨by simp [Json.memberOf, h5, mkCon], ?_⟩
        obtain ⟨e6, _⟩ := (show _ = none ∧ _ = [] from e4)
        simp [Graph.keyOf, e3, e6]
      | true =>
        refine .inl ⟨(key, u), by simp only [Json.memberOf, h5, mkCon]; exact e2, ?_, e5⟩
        have e4 : gk.key = some key := e4
        simp [Graph.keyOf, e3, e4]
  | _ => rw [hgv] at h3; simp [GVal.kids] at h3

/-- `zj_SetKey` of a value of the document. -/
theorem op_rename {pth : List Turn} {key : Bytes} (hv : Ready st P G v (some a) A) (hvs : Shows st v t) (hT : Tidy G)
    (hy : Ready st P G y (some k) A) (hp : PathTo G a q k) (hq : q ≠ []) (hk : IsSetBody key) :
    ∃ st', (do let p ← callerText (key ++ [0]); return .did (← setKeyC y p) : M Answer) st = .ok ((Deed.act t q (.rename pth key) u).1, st') ∧
      (∃ P' G', Ready st' P' G' v (some a) A ∧ Tidy G') ∧ Shows st' v (Deed.act t q (.rename pth key) u).2 := by
  have hy' := hy.addC (d := key ++ [0])
  have hv' := hv.addC (d := key ++ [0])
  have hvs' := hv'.shows (hv.unf hvs)
  have hc := addC_cstr (st := st) hk.no_nul
  obtain ⟨gk, hgk⟩ := Option.isSome_iff_exists.1 (hy.node k rfl)
  obtain ⟨c, gc, h1, h2, h3⟩ := hp.snoc hq
  obtain ⟨uc, h4, h5⟩ := h1.at (hv.unf hvs)
  obtain ⟨gk', h6, h7⟩ := hy.inv.kid h2 (List.mem_of_getElem? h3)
  rw [hgk] at h6; cases h6
  have hne : v ≠ y := by
    rintro rfl
    have e := hy.val.symm.trans hv.val
    simp at e; subst e
    exact hq (hy.inv.path_unique hp .nil)
  cases hgv : gc.val with
  | con o ks =>
    obtain ⟨ms, rfl, _⟩ := h4.con_inv h2 hgv
    cases o with
    | false =>
      have e : Deed.act t q (.rename pth key) u = (.did false, t) := by simp [Deed.act, h5, mkCon]
      rw [e]
      have := (setKeyC_run hy'.inv hy'.val hy'.node hc).2 (.inr ⟨k, gk, c, gc, rfl, hgk, h7, h2, by rw [hgv]; simp [GVal.type, conType]⟩)
      refine ⟨_, ?_, ⟨P, G, hv', hT⟩, hvs'⟩
      mstep callerText_run _ _
      mstep this
      rfl
    | true =>
      have e : Deed.act t q (.rename pth key) u =
          (.did true, t.replace q.dropLast (.obj (ms.modify (q.getLastD 0) fun m => (key, m.2)))) := by simp [Deed.act, h5, mkCon]
      rw [e]
      obtain ⟨st', e1, e2⟩ := (setKeyC_run hy'.inv hy'.val hy'.node hc).1 hk fun b gb f e hb hf => by
        cases e; rw [hgk] at hb; cases hb; rw [h7] at hf; cases hf
        exact ⟨gc, ks, h2, hgv⟩
      have hK := e2.keyed hy' (fun _ h => h.elim)
      have hr := hK.ready
      have hV := hv'.beside hr hne hK.mem (by
        rw [Graph.set_apply]
        split
        · rfl
        · exact hv.node a rfl)
      refine ⟨st', ?_, ⟨_, _, hV, ?_⟩, C43_member hK hy' h2 h3 hv' hne h1 hvs' h5⟩
      · mstep callerText_run _ _
        mstep e1
        rfl
      · intro b z hz
        rw [Graph.set_apply] at hz
        split at hz
        · cases hz
          rename_i e
          have hb : baseNode G (some k) = gk := by simp [baseNode, hgk]
          rw [hb]
          exact hT k gk hgk
        · exact hT b z hz
  | _ => rw [hgv] at h3; simp [GVal.kids] at h3

/-- A path of at least one step leads below. -/
theorem placeOf_ne {pth : List Turn} (h : t.placeOf pth = some q) (hp : pth ≠ []) : q ≠ [] := by
  rintro rfl
  cases pth with
  | nil => exact hp rfl
  | cons s r =>
    cases s <;> cases t <;> simp [Json.placeOf, Option.bind_eq_some_iff] at h

theorem memberAt_split {key : Bytes} : ∀ {ms : List (Bytes × Json)}, memberAt key ms = none → ∀ m ∈ ms, m.1 ≠ key
  | [], _, m, hm => by cases hm
  | (k, t) :: ms, h, m, hm => by
    rw [memberAt] at h
    split at h
    · cases h
    · rename_i e
      rcases List.mem_cons.1 hm with rfl | hm
      · exact e
      · exact memberAt_split (by simpa using h) m hm

/-- C77, one request: it ends, its answer is that of the specification and the document is
changed accordingly; the next request finds everything in order. -/
theorem C77_step {e : Deed} (h : Kempt st v a A t) (he : e.OK) (hf : e.Fits t) :
    ∃ c st', (∀ fuel, c ≤ fuel → e.run fuel A v st = .ok ((e.spec t).1, st')) ∧ Kempt st' v a A (e.spec t).2 := by
  obtain ⟨⟨P, G, hR, hT⟩, hs, hv⟩ := h
  have hval := Deed.spec_valid he hv
  obtain ⟨hk, he⟩ := he
  -- the requests that need no new value
  have plain : (∀ st, e.prepare A v st = .ok (v, st)) →
      (∀ {st1 y k u q}, t.placeOf e.path = some q → Unchanged st st1 → Ready st1 P G v (some a) A → Shows st1 v t →
        Ready st1 P G y (some k) A → Shows st1 y u → t.at q = some u → PathTo G a q k →
        ∃ c st', (∀ fuel, c ≤ fuel → e.doIt fuel v y st1 = .ok ((e.act t q u).1, st')) ∧
          (∃ P' G', Ready st' P' G' v (some a) A ∧ Tidy G') ∧ Shows st' v (e.act t q u).2) →
      ∃ c st', (∀ fuel, c ≤ fuel → e.run fuel A v st = .ok ((e.spec t).1, st')) ∧ Kempt st' v a A (e.spec t).2 := by
    intro hp op
    obtain ⟨c, st', h1, h2, h3⟩ := at_path (no := e.refuse) (g := fun fuel y => e.doIt fuel v y) (sp := fun q u => e.act t q u)
      hR hT hs hv hk op rfl
    refine ⟨c, st', fun fuel hf => ?_, h2, h3, hval⟩
    unfold Deed.run
    mstep hp st
    exact h1 fuel hf
  cases e with
  | put p w b =>
    refine plain (fun _ => rfl) fun hq hu gv gs gy gys hat hp => ?_
    obtain ⟨st', P', G', e1, e2, e3, e4⟩ := op_put gv gs hT gy hp he
    exact ⟨0, st', fun _ _ => e1, ⟨P', G', e2, e3⟩, e4⟩
  | look p =>
    refine plain (fun _ => rfl) fun {st1 y k u q} hq hu gv gs gy gys hat hp => ?_
    obtain ⟨c, s, st', e1, e2, _, e3, _⟩ := C09_stringify gy gys
    have hV := gv.unchanged e3 (by assumption : Ready st' _ _ _ _ _).inv.ok
    refine ⟨c, st', fun fuel hf => ?_, ⟨P, G, hV, hT⟩, hV.shows (gv.unf gs)⟩
    unfold Deed.doIt
    mstep e1 fuel hf
    mstep readC_holds e2
    rw [takeWhile_self (print_text (at_valid hv hat)).no_nul]
    rfl
  | dup p src =>
    refine plain (fun _ => rfl) fun {st1 y k u q} hq hu gv gs gy gys hat hp => ?_
    obtain ⟨n, hn⟩ := wide_exists t
    obtain ⟨o, st2, g1, g2, g3, g4⟩ := C69_goTo gv gs hv (hn n (Nat.le_refl n)) he
    have gs2 := g3.shows (gv.unf gs)
    have gy2 := gy.unchanged g2 g3.inv.ok
    have gys2 := gy2.shows (gy.unf gys)
    cases hsrc : t.placeOf src with
    | none =>
      rw [hsrc] at g4; subst g4
      have e : Deed.act t q (.dup p src) u = (.did false, t) := by cases u <;> first | rfl | simp [Deed.act, hsrc]
      rw [e]
      refine ⟨n, st2, fun fuel hf => ?_, ⟨P, G, g3, hT⟩, gs2⟩
      unfold Deed.doIt
      mstep (goTo_mono hf src v).ok g1
      rfl
    | some q' =>
      rw [hsrc] at g4
      obtain ⟨z, kz, w, rfl, h4, h5, h6, _⟩ := g4
      by_cases ha : ∃ xs, u = .arr xs
      · obtain ⟨xs, rfl⟩ := ha
        have e : Deed.act t q (.dup p src) (.arr xs) = (.did true, t.replace q (.arr (xs ++ [w]))) := by
          simp [Deed.act, hsrc, h4]
        rw [e]
        obtain ⟨c, st', P', G', a1, a2, a3, _, _, _, _, _, a9⟩ := arrayAdd_edit gy2 h6 gys2 h5 hT.endRight
        have hV := a2.ready g3 id (fun c hc => a3.some (g3.node c hc))
        refine ⟨n + c, st', fun fuel hf => ?_, ⟨_, G', hV, a9 hT⟩, (a3.shows g3 hV gs2).2 q hp⟩
        unfold Deed.doIt
        mstep (goTo_mono (by omega) src v).ok g1
        mstep (arrayAdd_mono (by omega)).ok (a1 0)
        rfl
      · have e : Deed.act t q (.dup p src) u = (.did false, t) := by
          cases u <;> first | rfl | exact absurd ⟨_, rfl⟩ ha
        rw [e]
        have hno : ∀ t, Shows st2 y t → ∀ ts, t ≠ .arr ts := fun t ht ts hts => ha ⟨ts, by rw [← hts]; exact gys2.det ht⟩
        refine ⟨n, st2, fun fuel hf => ?_, ⟨_, _, g3, hT⟩, gs2⟩
        unfold Deed.doIt
        mstep (goTo_mono hf src v).ok g1
        mstep ((C29_refused gy2 h6 (F := fuel)).1 hno).1
        rfl
  | share p src =>
    refine plain (fun _ => rfl) fun {st1 y k u q} hq hu gv gs gy gys hat hp => ?_
    obtain ⟨n, hn⟩ := wide_exists t
    obtain ⟨o, st2, g1, g2, g3, g4⟩ := C69_goTo gv gs hv (hn n (Nat.le_refl n)) he.2
    have gs2 := g3.shows (gv.unf gs)
    have gy2 := gy.unchanged g2 g3.inv.ok
    have gys2 := gy2.shows (gy.unf gys)
    cases hsrc : t.placeOf src with
    | none =>
      rw [hsrc] at g4; subst g4
      have e : Deed.act t q (.share p src) u = (.did false, t) := by cases u <;> first | rfl | simp [Deed.act, hsrc]
      rw [e]
      refine ⟨n, st2, fun fuel hf => ?_, ⟨P, G, g3, hT⟩, gs2⟩
      unfold Deed.doIt
      mstep (goTo_mono hf src v).ok g1
      rfl
    | some q' =>
      rw [hsrc] at g4
      obtain ⟨z, kz, w, rfl, h4, h5, h6, h7⟩ := g4
      by_cases ha : ∃ xs, u = .obj xs
      · obtain ⟨xs, rfl⟩ := ha
        rcases h7.named (placeOf_ne hsrc he.1) (gv.unf gs) with ⟨m, m1, m2, m3⟩ | ⟨m1, m2⟩
        · have e : Deed.act t q (.share p src) (.obj xs) = (.did true, t.replace q (.obj (xs ++ [m]))) := by
            simp [Deed.act, hsrc, m1]
          rw [e]
          obtain ⟨c, st', P', G', a1, a2, a3, _, _, _, _, _, a9⟩ := objAdd_edit gy2 h6 gys2 (h6.shows m3) m2 hT.endRight
          have hV := a2.ready g3 id (fun c hc => a3.some (g3.node c hc))
          refine ⟨n + c, st', fun fuel hf => ?_, ⟨_, G', hV, a9 hT⟩, (a3.shows g3 hV gs2).2 q hp⟩
          unfold Deed.doIt
          mstep (goTo_mono (by omega) src v).ok g1
          mstep (objAdd_mono (by omega)).ok (a1 0)
          rfl
        · have e : Deed.act t q (.share p src) (.obj xs) = (.did false, t) := by
            simp [Deed.act, hsrc, m1]
          rw [e]
          refine ⟨n, st2, fun fuel hf => ?_, ⟨_, _, g3, hT⟩, gs2⟩
          unfold Deed.doIt
          mstep (goTo_mono hf src v).ok g1
          mstep ((C29_refused gy2 h6 (F := fuel)).2.2.2.2 kz rfl m2).1
          rfl
      · have e : Deed.act t q (.share p src) u = (.did false, t) := by
          cases u <;> first | rfl | exact absurd ⟨_, rfl⟩ ha
        rw [e]
        have hno : ∀ t, Shows st2 y t → ∀ ts, t ≠ .obj ts := fun t ht ts hts => ha ⟨ts, by rw [← hts]; exact gys2.det ht⟩
        refine ⟨n, st2, fun fuel hf => ?_, ⟨_, _, g3, hT⟩, gs2⟩
        unfold Deed.doIt
        mstep (goTo_mono hf src v).ok g1
        mstep ((C29_refused gy2 h6 (F := fuel)).2.1 hno).1
        rfl
  | size p =>
    refine plain (fun _ => rfl) fun {st1 y k u q} hq hu gv gs gy gys hat hp => ?_
    refine ⟨0, st1, fun fuel hf => ?_, ⟨P, G, gv, hT⟩, gs⟩
    unfold Deed.doIt
    mstep C24_sizeOf gy gys
    rfl
  | rename p key =>
    refine plain (fun _ => rfl) fun hq hu gv gs gy gys hat hp => ?_
    obtain ⟨st', e1, e2, e3⟩ := op_rename (pth := p) gv gs hT gy hp (placeOf_ne hq he.1) he.2
    exact ⟨0, st', fun _ _ => e1, e2, e3⟩
  | delete p i =>
    refine plain (fun _ => rfl) fun {st1 y k u q} hq hu gv gs gy gys hat hp => ?_
    have no : (∀ xs, u = .arr xs → xs.length ≤ i) → Deed.act t q (.delete p i) u = (.did false, t) ∧
        ∀ fuel, u.items.length + 1 ≤ fuel → arrayDel fuel y i st1 = .ok (false, st1) := by
      intro hno
      constructor
      · cases u <;> first | rfl | (have := hno _ rfl; simp [Deed.act, Nat.not_lt.2 this])
      · intro fuel hf
        by_cases ha : ∃ xs, u = .arr xs
        · obtain ⟨xs, rfl⟩ := ha
          exact (C32_missing gy (p := .buf 0 0)).1 xs i gys (hno xs rfl) (by simp [Json.items] at hf; omega)
        · refine (C32_missing gy (p := .buf 0 0)).2.2.1 (fun t ht ts hts => ?_) i
          obtain rfl := gys.det ht
          exact ha ⟨ts, hts⟩
    by_cases ha : ∃ xs, u = .arr xs ∧ i < xs.length
    · obtain ⟨xs, rfl, hi⟩ := ha
      obtain rfl : i = 0 := (hf q xs hq hat).resolve_right (by omega)
      obtain ⟨gf, kids, ms, hgf, hgv, hii, hms⟩ := gy.arr gys
      have hlen : 0 < kids.length := by
        rw [hii.length, ← List.length_map (f := (·.2)) (as := ms), hms]; exact hi
      obtain ⟨st', G', ys, zs, mm, a1, a2, a3, a4, a5, a6, a7⟩ := C32_arrayDel_partial (i := 0) (fuel := xs.length + 1) gy gys
        hi (by omega) ⟨gf, hgf, by rw [hgv]; exact List.getElem?_eq_getElem hlen⟩ (.inl rfl)
      have hx : mkCon false (ys ++ zs) = .arr (xs.eraseIdx 0) := (a3.edit.doc).det (a5.unf a6)
      have hE := a3.edit
      rw [hx] at hE
      have e : Deed.act t q (.delete p 0) (.arr xs) = (.did true, t.replace q (.arr (xs.eraseIdx 0))) := by simp [Deed.act, hi]
      rw [e]
      have hV := a2.ready gv id (fun c hc => hE.some (gv.node c hc))
      refine ⟨xs.length + 1, st', fun fuel hf => ?_, ⟨P, G', hV, a7 rfl hT⟩, (hE.shows gv hV gs).2 q hp⟩
      unfold Deed.doIt
      mstep (arrayDel_mono hf).ok a1
      rfl
    · obtain ⟨h1, h2⟩ := no fun xs hxs => Nat.le_of_not_lt fun hlt => ha ⟨xs, hxs, hlt⟩
      rw [h1]
      refine ⟨u.items.length + 1, st1, fun fuel hf => ?_, ⟨P, G, gv, hT⟩, gs⟩
      unfold Deed.doIt
      mstep h2 fuel hf
      rfl
  | unset p key =>
    refine plain (fun _ => rfl) fun {st1 y k u q} hq hu gv gs gy gys hat hp => ?_
    have gy' := gy.addC (d := key ++ [0])
    have gv' := gv.addC (d := key ++ [0])
    have gs' := gv'.shows (gv.unf gs)
    have gys' := gy'.shows (gy.unf gys)
    have hc : CStr (st1.addC (key ++ [0])) (.buf st1.nb 0) key := addC_cstr he
    by_cases ha : ∃ ms, u = .obj ms
    · obtain ⟨ms, rfl⟩ := ha
      have hnul := valid_keys (at_valid hv hat)
      cases hm : memberAt key ms with
      | none =>
        have e : Deed.act t q (.unset p key) (.obj ms) = (.did false, t) := by simp [Deed.act, hm]
        rw [e]
        refine ⟨ms.length + 1, _, fun fuel hf => ?_, ⟨P, G, gv', hT⟩, gs'⟩
        unfold Deed.doIt
        mstep callerText_run _ _
        mstep (C32_missing gy').2.1 ms key gys' hc hnul (memberAt_split hm) hf
        rfl
      | some r =>
        obtain ⟨i, z⟩ := r
        have e : Deed.act t q (.unset p key) (.obj ms) = (.did true, t.replace q (.obj (ms.eraseIdx i))) := by simp [Deed.act, hm]
        rw [e]
        obtain rfl := hf q ms i z hq hat hm
        have h0 := (memberAt_modify (f := id) hm).2
        cases ms with
        | nil => simp at h0
        | cons m zs =>
          simp only [List.getElem?_cons_zero, Option.some.injEq] at h0
          subst h0
          obtain ⟨gf, kids, hgf, hgv, hii⟩ := gy'.obj gys'
          have hlen : 0 < kids.length := by rw [hii.length]; simp
          obtain ⟨st', G', a1, a2, a3, a4, a5, a6⟩ := C32_objDel_partial (ys := []) (fuel := zs.length + 2) gy' gys' (by simp) hnul hc
            (by simp) ⟨gf, hgf, by rw [hgv]; exact List.getElem?_eq_getElem hlen⟩ (.inl rfl)
          have hE := a3.edit
          have hV := a2.ready gv' id (fun c hc => hE.some (gv.node c hc))
          refine ⟨zs.length + 2, st', fun fuel hf => ?_, ⟨P, G', hV, a6 rfl hT⟩, (hE.shows gv' hV gs').2 q hp⟩
          unfold Deed.doIt
          mstep callerText_run _ _
          mstep (objDel_mono hf).ok a1
          rfl
    · have e : Deed.act t q (.unset p key) u = (.did false, t) := by
        cases u <;> first | rfl | exact absurd ⟨_, rfl⟩ ha
      rw [e]
      refine ⟨0, _, fun fuel hf => ?_, ⟨P, G, gv', hT⟩, gs'⟩
      unfold Deed.doIt
      mstep callerText_run _ _
      mstep (C32_missing gy').2.2.2 (fun t ht ts hts => ha ⟨ts, by rw [← hts]; exact gys'.det ht⟩)
      rfl
  | append fast p w b =>
    obtain ⟨x, m, st0, P0, G0, f1, f2, f3, f4, f5, f6, f7, f8, f9, gm, f10, f11⟩ := fresh_run hR hT hs he
    obtain ⟨c, st', h1, h2, h3⟩ := at_path (no := .did false) (g := fun fuel y => (Deed.append fast p w b).doIt fuel x y)
      (sp := fun q u => (Deed.append fast p w b).act t q u) f5 f4 f6 hv hk (fun {st1 y k u q} hq hu gv gs gy gys hat hp => by
        have fw := f2.unchanged hu gv.inv.ok
        have fs := fw.shows (f2.unf f3)
        by_cases ha : ∃ xs, u = .arr xs
        · obtain ⟨xs, rfl⟩ := ha
          cases fast with
          | true =>
            obtain ⟨st', G', a1, a2, a3, a4⟩ := arrayAddFast_root gy fw gys fs f4 f10 f11 (f9 k hp.reach)
            have hV := a2.ready gv f7.symm (fun c hc => a3.some (gv.node c hc))
            refine ⟨0, st', fun fuel _ => ?_, ⟨_, G', hV, a4⟩, (a3.shows gv hV gs).2 q hp⟩
            unfold Deed.doIt
            mstep a1
            rfl
          | false =>
            obtain ⟨c, st', P', G', a1, a2, a3, _, _, _, _, _, a9⟩ := arrayAdd_edit gy fw gys fs f4.endRight
            have hV := a2.ready gv id (fun c hc => a3.some (gv.node c hc))
            refine ⟨c, st', fun fuel hf => ?_, ⟨_, G', hV, a9 f4⟩, (a3.shows gv hV gs).2 q hp⟩
            unfold Deed.doIt
            mstep (arrayAdd_mono (by omega)).ok (a1 0)
            rfl
        · have e : (Deed.append fast p w b).act t q u = (.did false, t) := by
            cases u <;> first | rfl | exact absurd ⟨_, rfl⟩ ha
          rw [e]
          have hno : ∀ t, Shows st1 y t → ∀ ts, t ≠ .arr ts := fun t ht ts hts => ha ⟨ts, by rw [← hts]; exact gys.det ht⟩
          refine ⟨0, st1, fun fuel hf => ?_, ⟨_, _, gv, f4⟩, gs⟩
          have := (C29_refused gy fw (F := fuel)).1 hno
          cases fast with
          | true =>
            unfold Deed.doIt
            mstep this.2
            rfl
          | false =>
            unfold Deed.doIt
            mstep this.1
            rfl) rfl
    refine ⟨c, st', fun fuel hf => ?_, h2, h3, hval⟩
    unfold Deed.run
    mstep f1
    exact h1 fuel hf
  | member fast p key w b =>
    obtain ⟨x, m, st0, P0, G0, f1, f2, f3, f4, f5, f6, f7, f8, f9, gm, f10, f11⟩ := fresh_run hR hT hs he.1
    obtain ⟨st0', P0, G0, k1, f2, f3, f4, f5, f6, k2, k3, gm, f10, f11⟩ := setKey_root (f2.addC (d := key ++ [0])) (f5.addC (d := key ++ [0]))
      f4 ((f2.addC (d := key ++ [0])).shows (f2.unf f3)) ((f5.addC (d := key ++ [0])).shows (f5.unf f6)) f10 f11 f7 f8 he.2
      (addC_cstr he.2.no_nul)
    obtain ⟨c, st', h1, h2, h3⟩ := at_path (no := .did false) (g := fun fuel y => (Deed.member fast p key w b).doIt fuel x y)
      (sp := fun q u => (Deed.member fast p key w b).act t q u) f5 f4 f6 hv hk (fun {st1 y k u q} hq hu gv gs gy gys hat hp => by
        have fw := f2.unchanged hu gv.inv.ok
        have fs := fw.shows (f2.unf f3)
        by_cases ha : ∃ xs, u = .obj xs
        · obtain ⟨xs, rfl⟩ := ha
          cases fast with
          | true =>
            obtain ⟨st', G', a1, a2, a3, a4⟩ := objAddFast_root gy fw gys fs f4 f10 f11 k2
              (fun hr => f9 k (k3 _ _ hp.reach) (k3 _ _ hr))
            have hV := a2.ready gv f7.symm (fun c hc => a3.some (gv.node c hc))
            refine ⟨0, st', fun fuel _ => ?_, ⟨_, G', hV, a4⟩, (a3.shows gv hV gs).2 q hp⟩
            unfold Deed.doIt
            mstep a1
            rfl
          | false =>
            obtain ⟨c, st', P', G', a1, a2, a3, _, _, _, _, _, a9⟩ := objAdd_edit gy fw gys fs k2 f4.endRight
            have hV := a2.ready gv id (fun c hc => a3.some (gv.node c hc))
            refine ⟨c, st', fun fuel hf => ?_, ⟨_, G', hV, a9 f4⟩, (a3.shows gv hV gs).2 q hp⟩
            unfold Deed.doIt
            mstep (objAdd_mono (by omega)).ok (a1 0)
            rfl
        · have e : (Deed.member fast p key w b).act t q u = (.did false, t) := by
            cases u <;> first | rfl | exact absurd ⟨_, rfl⟩ ha
          rw [e]
          have hno : ∀ t, Shows st1 y t → ∀ ts, t ≠ .obj ts := fun t ht ts hts => ha ⟨ts, by rw [← hts]; exact gys.det ht⟩
          refine ⟨0, st1, fun fuel hf => ?_, ⟨_, _, gv, f4⟩, gs⟩
          have := (C29_refused gy fw (F := fuel)).2.1 hno
          cases fast with
          | true =>
            unfold Deed.doIt
            mstep this.2
            rfl
          | false =>
            unfold Deed.doIt
            mstep this.1
            rfl) rfl
    refine ⟨c, st', fun fuel hf => ?_, h2, h3, hval⟩
    unfold Deed.run
    have hprep : (Deed.member fast p key w b).prepare A v st = .ok (x, st0') := by
      unfold Deed.prepare
      mstep f1
      mstep callerText_run _ _
      mstep k1
      rfl
    mstep hprep
    exact h1 fuel hf

/-- C77: any requests in any order, each at a place that may have been made by the earlier ones. -/
theorem C77_requests : ∀ {es : List Deed} {st : St} {t : Json}, Kempt st v a A t → AllFit es t →
    ∃ c st', (∀ fuel, c ≤ fuel → runAll fuel A v es st = .ok ((specAll es t).1, st')) ∧ Kempt st' v a A (specAll es t).2
  | [], st, t, h, _ => ⟨0, st, fun _ _ => rfl, h⟩
  | e :: es, st, t, h, he => by
    obtain ⟨c1, st1, h1, h2⟩ := C77_step h he.1 he.2.1
    obtain ⟨c2, st2, h3, h4⟩ := C77_requests h2 he.2.2
    refine ⟨c1 + c2, st2, fun fuel hf => ?_, h4⟩
    unfold runAll
    mstep h1 fuel (by omega)
    mstep h3 fuel (by omega)
    rfl

/-- C77 for whole programs: parse a document, perform the requests, print the document. The
answers and the text are those of the specification. -/
theorem C77_program (slack : Nat → Nat) {cfg : Cfg} {d : Bytes} (ht : JText t d) {es : List Deed} (he : AllFit es t) :
    ∃ c, ∀ fuel, c ≤ fuel → ((do
      let A ← newAllocator
      let v ← newValue A
      let p ← callerText (d ++ [0])
      let r ← parse v p
      let rs ← runAll fuel A v es
      let s ← stringify fuel v
      let y ← readN s (specAll es t).2.print.length
      return (r, rs, y) : M _) (St.init slack cfg)).out = .ok (true, (specAll es t).1, (specAll es t).2.print) := by
  have hR := (start_ready slack cfg).addC (d := d ++ [0])
  have hc := addC_cstr (st := start slack cfg) ht.no_nul
  obtain ⟨st1, P1, G1, h1, h2, h3, h4, _⟩ := parse_grow hR hc ht
  obtain ⟨c1, st2, h5, ⟨P2, G2, h6, _⟩, h7, _⟩ := C77_requests (es := es) ⟨⟨P1, G1, h2, h4 (fun _ _ h => by cases h)⟩, h3, ht.valid⟩ he
  obtain ⟨c2, s, st3, h8, h9, _, _, h10⟩ := C09_stringify h6 h7
  refine ⟨c1 + c2, fun fuel hf => ?_⟩
  have hrun : (do
      let p ← callerText (d ++ [0])
      let r ← parse 0 p
      let rs ← runAll fuel 0 0 es
      let s ← stringify fuel 0
      let y ← readN s (specAll es t).2.print.length
      return (r, rs, y) : M _) (start slack cfg) = .ok ((true, (specAll es t).1, (specAll es t).2.print), st3) := by
    mstep callerText_run _ _
    mstep h1
    mstep h5 fuel (by omega)
    mstep h8 fuel (by omega)
    mstep h9.reads h10.inv.ok
    rfl
  exact congrArg Res.out hrun

/-- Thirteen requests: the second goes to an array that the first one made, the fourth to a member
that the third one made; the renamed member is found under its new name; the last leads nowhere. -/
def someDeeds : List Deed := [
  .put [.key b!"a"] (.arr []) b!"[]",
  .append false [.key b!"a"] (.num b!"7") b!"7",
  .member true [] b!"c" (.arr [.null, .bool true]) b!"[null,true]",
  .delete [.key b!"c"] 0,
  .rename [.key b!"c"] b!"d",
  .append true [.key b!"d"] .null b!"null",
  .look [.key b!"d"],
  .dup [.key b!"d"] [],
  .dup [.key b!"d"] [.key b!"x"],
  .share [.key b!"d", .idx 2] [.key b!"b"],
  .unset [] b!"a",
  .size [],
  .append false [.key b!"a"] .null b!"null"]

/-- The document they start from. -/
def someStart : Json := .obj [(b!"a", .null), (b!"b", .num b!"1")]

example : specAll someDeeds someStart =
    ([.did true, .did true, .did true, .did true, .did true, .did true, .text (some b!"[true,null]"), .did true, .did false, .did true, .did true, .count (some 2), .did false],
      .obj [(b!"b", .num b!"1"), (b!"d", .arr [.bool true, .null, .obj [(b!"a", .arr [.num b!"7"]), (b!"b", .num b!"1"), (b!"d", .arr [.bool true, .null]), (b!"b", .num b!"1")]])]) := by rfl

/-- They meet the hypotheses. -/
theorem someDeeds_fit : AllFit someDeeds someStart := by
  have hn : ∀ k : Bytes, (0 : Byte) ∉ k → Sayable [.key k] := fun k hk key h => by simp at h; exact h ▸ hk
  have h0 : Sayable [] := fun k h => by cases h
  have h2 : Sayable [.key b!"d", .idx 2] := fun key h => by
    have : key = b!"d" := by simpa using h
    subst this; decide
  have h7 : (Json.num b!"7").Valid :=
    ⟨[], b!"7", [], [], by simp, .inl rfl, .inr ⟨0x37, [], rfl, by decide, by decide, by simp⟩, .inl rfl, .inl rfl⟩
  refine ⟨⟨hn _ (by decide), print_text (t := .arr []) (by simp [Json.Valid, Json.ValidElems])⟩, trivial,
    ⟨hn _ (by decide), print_text h7⟩, trivial,
    ⟨h0, print_text (t := .arr [.null, .bool true]) (by simp [Json.Valid, Json.ValidElems]), .plain (by decide) (by decide) (by decide) .nil⟩, trivial,
    ⟨hn _ (by decide), trivial⟩, fun _ _ _ _ => .inl rfl,
    ⟨hn _ (by decide), by simp, .plain (by decide) (by decide) (by decide) .nil⟩, trivial,
    ⟨hn _ (by decide), print_text (t := .null) trivial⟩, trivial,
    ⟨hn _ (by decide), trivial⟩, trivial,
    ⟨hn _ (by decide), h0⟩, trivial,
    ⟨hn _ (by decide), hn _ (by decide)⟩, trivial,
    ⟨h2, by simp, hn _ (by decide)⟩, trivial,
    ⟨h0, by decide⟩, ?_,
    ⟨h0, trivial⟩, trivial,
    ⟨hn _ (by decide), print_text (t := .null) trivial⟩, trivial, trivial⟩
  intro q ms i u hq hat hm
  cases hq
  cases hat
  cases hm
  rfl

example : ((do
    let A ← newAllocator
    let v ← newValue A
    let p ← callerText (b!"{\"a\":null,\"b\":1}" ++ [0])
    let r ← parse v p
    let rs ← runAll 99 A v someDeeds
    let s ← stringify 99 v
    let y ← readN s 61
    return (r, rs, y) : M _) (St.init fun _ => 0)).out
      = .ok (true, [.did true, .did true, .did true, .did true, .did true, .did true, .text (some b!"[true,null]"), .did true, .did false, .did true,
          .did true, .count (some 2), .did false], b!"{\"b\":1,\"d\":[true,null,{\"a\":[7],\"b\":1,\"d\":[true,null],\"b\":1}]}") := by decide +kernel

end

end ZJ
