import Verif.PropEdits
import Verif.PropEsc
import Verif.PropNum

/-!
C79: a document can be built value by value. A program that makes a value for every part of a
document with the setters and joins them with `zj_ArrayAddFast` and `zj_ObjAddFast`, from the inside
to the outside, ends with exactly that document, however large it is and however it is nested.
-/

namespace ZJ

/-! ### The specification -/

/-- A string or key as the program has it: a JSON string body for `zj_SetStr`/`zj_SetKey`, or a
text without escapes for `zj_SetStrEscape`/`zj_SetKeyEscape`. -/
inductive Word where
  | raw (s : Bytes)
  | text (s : Bytes)

/-- What the program wants to build. -/
inductive Plan where
  | null
  | bool (b : Bool)
  | num (s : Bytes)
  | int (n : Int)
  | str (w : Word)
  | arr (xs : List Plan)
  | obj (ms : List (Word × Plan))

/-- The functions take the word: a body that `zj_SetStr` accepts (C15), a text without NUL. -/
def Word.OK : Word → Prop
  | raw s => IsSetBody s
  | text s => (0 : Byte) ∉ s

mutual
/-- The words are as above, the numbers are JSON numbers, the integers are of type `long long`. -/
def Plan.OK : Plan → Prop
  | num s => IsNum s
  | int n => -9223372036854775808 ≤ n ∧ n ≤ 9223372036854775807
  | str w => w.OK
  | arr xs => Plan.AllOK xs
  | obj ms => Plan.MembersOK ms
  | _ => True
def Plan.AllOK : List Plan → Prop
  | [] => True
  | x :: xs => x.OK ∧ Plan.AllOK xs
def Plan.MembersOK : List (Word × Plan) → Prop
  | [] => True
  | (w, x) :: ms => w.OK ∧ x.OK ∧ Plan.MembersOK ms
end

/-- `e` is a JSON string body for the word. -/
def Word.Is : Word → Bytes → Prop
  | raw s, e => e = s
  | text s, e => IsStrBody e ∧ Denotes e s

mutual
/-- `t` is the document that was wanted. -/
inductive Plan.Is : Plan → Json → Prop where
  | null : Plan.Is .null .null
  | bool {b} : Plan.Is (.bool b) (.bool b)
  | num {s} : Plan.Is (.num s) (.num s)
  | int {n raw} : Decimal n raw → Plan.Is (.int n) (.num raw)
  | str {w e} : w.Is e → Plan.Is (.str w) (.str e)
  | arr {xs ts} : Plan.Are xs ts → Plan.Is (.arr xs) (.arr ts)
  | obj {ms ns} : Plan.Have ms ns → Plan.Is (.obj ms) (.obj ns)
inductive Plan.Are : List Plan → List Json → Prop where
  | nil : Plan.Are [] []
  | cons {x t xs ts} : Plan.Is x t → Plan.Are xs ts → Plan.Are (x :: xs) (t :: ts)
inductive Plan.Have : List (Word × Plan) → List (Bytes × Json) → Prop where
  | nil : Plan.Have [] []
  | cons {w e x t ms ns} : w.Is e → Plan.Is x t → Plan.Have ms ns → Plan.Have ((w, x) :: ms) ((e, t) :: ns)
end

/-! ### The program -/

def Word.setStr (w : Word) (v : Addr) : M Bool :=
  match w with
  | raw s => do
    let p ← callerText (s ++ [0])
    ZJ.setStr v p
  | text s => do
    let p ← callerText (s ++ [0])
    setStrEscape v p

def Word.setKey (w : Word) (v : Addr) : M Bool :=
  match w with
  | raw s => do
    let p ← callerText (s ++ [0])
    setKeyC v p
  | text s => do
    let p ← callerText (s ++ [0])
    setKeyEscape v p

mutual
/-- Builds the value; also tells whether all calls returned true. -/
def Plan.build (A : Nat) : Plan → M (Addr × Bool)
  | null => do
    let v ← newValue A
    setNull v
    return (v, true)
  | bool b => do
    let v ← newValue A
    setBool v b
    return (v, true)
  | num s => do
    let v ← newValue A
    let p ← callerText (s ++ [0])
    let r ← setNumStr v p
    return (v, r)
  | int n => do
    let v ← newValue A
    let r ← setLongLong v n
    return (v, r)
  | str w => do
    let v ← newValue A
    let r ← w.setStr v
    return (v, r)
  | arr xs => do
    let v ← newValue A
    setArray v
    let r ← Plan.elems A v xs
    return (v, r)
  | obj ms => do
    let v ← newValue A
    setObj v
    let r ← Plan.members A v ms
    return (v, r)
def Plan.elems (A : Nat) (v : Addr) : List Plan → M Bool
  | [] => return true
  | x :: xs => do
    let (w, r1) ← x.build A
    let r2 ← arrayAddFast v w
    let r3 ← Plan.elems A v xs
    return r1 && r2 && r3
def Plan.members (A : Nat) (v : Addr) : List (Word × Plan) → M Bool
  | [] => return true
  | (k, x) :: ms => do
    let (w, r1) ← x.build A
    let r2 ← k.setKey w
    let r3 ← objAddFast v w
    let r4 ← Plan.members A v ms
    return r1 && r2 && r3 && r4
end

/-! ### The proof -/

section
variable {st st' st1 st2 : St} {P P' P1 P2 : Addr → Prop} {G G' G1 G2 : Graph} {v w A n k f x : Addr} {t u : Json} {b : Bytes} {p : SPtr}

/-- Where a value can be built. -/
structure Site (st : St) (P : Addr → Prop) (G : Graph) (A : Nat) : Prop where
  inv : Inv st P G
  cok : CacheOK st
  alloc : st.allocs A = true
  tidy : Tidy G

/-- A new value `v` with the document `t` was built; what there was is as before. -/
structure BuiltNew (st st' : St) (G : Graph) (P' : Addr → Prop) (G' : Graph) (A v n : Addr) (t : Json) : Prop where
  ready : Ready st' P' G' v (some n) A
  shows : Shows st' v t
  tidy : Tidy G'
  root : ∃ gn, G' n = some gn ∧ gn.par = none
  nv : st.nv ≤ v
  nn : st.nn ≤ n
  low : ∀ c, c < st.nn → G' c = G c
  closed : ∀ c gc k, st.nn ≤ c → G' c = some gc → k ∈ gc.val.kids → st.nn ≤ k
  vals : ∀ h, h < st.nv → st'.vals h = st.vals h
  upn : st.nn ≤ st'.nn
  upv : st.nv ≤ st'.nv

theorem BuiltNew.site (h : BuiltNew st st' G P' G' A v n t) : Site st' P' G' A := ⟨h.ready.inv, h.ready.cok, h.ready.alloc, h.tidy⟩

/-- What is below a new node is new. -/
theorem BuiltNew.below (h : BuiltNew st st' G P' G' A v n t) {c d} (hr : Reach G' c d) : st.nn ≤ c → st.nn ≤ d := by
  induction hr with
  | refl => exact id
  | step h1 h2 _ ih => exact fun hc => ih (h.closed _ _ _ hc h1 h2)

/-- A setter at a new value. -/
theorem BuiltNew.leaf {gv : GVal} (h : Site st P G A) (hu : Unchanged st st1) (hnn : st1.nn = st.nn) (hnv : st.nv < st1.nv)
    (hk : gv.kids = []) (hs : SetTo (fun _ => False) st1 st' P P' G st.nv none A gv t) :
    BuiltNew st st' G P' (G.set st.nn ((baseNode G none).put gv)) A st.nv st.nn t := by
  obtain ⟨h1, h2, h3, _, _, h4, h5⟩ := hs
  have hr : rootOf st1 none = st.nn := by simp [rootOf, hnn]
  rw [hr] at h1 h2 h3 h4
  have hR : Ready st' P' (G.set st.nn ((baseNode G none).put gv)) st.nv (some st.nn) A :=
    ⟨h1, h5 (h.cok.frame h.inv.ok hu.1 hu.2), h3, fun a ha => by cases ha; simp⟩
  refine ⟨hR, hR.shows h2, ?_, ⟨_, Graph.set_same _ _ _, rfl⟩, Nat.le_refl _, Nat.le_refl _, fun c hc => Graph.set_ne _ _ (by omega), ?_, ?_, ?_, ?_⟩
  · intro a y ha
    rw [Graph.set_apply] at ha
    split at ha
    · cases ha; exact ⟨.inr rfl, rfl⟩
    · exact h.tidy a y ha
  · intro c gc k hc hg hm
    by_cases e : c = st.nn
    · subst e
      rw [Graph.set_same] at hg; cases hg
      rw [show ((baseNode G none).put gv).val.kids = [] from hk] at hm
      cases hm
    · rw [Graph.set_ne _ _ e] at hg
      have := h.inv.lt hg
      omega
  · intro h' hh
    rw [h4.vals h' (by omega) (by omega), hu.1.vals h' hh id]
  · have := h4.nn; omega
  · have := h4.nv; omega

/-- Giving the new value a key. -/
theorem BuiltNew.key {w : Word} (h : BuiltNew st st' G P' G' A v n t) (hw : w.OK) :
    ∃ st2 P2 G2 e, w.setKey v st' = .ok (true, st2) ∧ w.Is e ∧ BuiltNew st st2 G P2 G2 A v n t ∧ G2.keyOf n = some e := by
  obtain ⟨gn, hn, hp⟩ := h.root
  have fin : ∀ {s e : Bytes} {st2 P2}, KeyTo (fun _ => False) (st'.addC s) st2 P' P2 G' v (some n) A e →
      ∃ G2, BuiltNew st st2 G P2 G2 A v n t ∧ G2.keyOf n = some e := by
    intro s e st2 P2 hk
    have hb : baseNode G' (some n) = gn := by simp [baseNode, hn]
    obtain ⟨h1, h2, _, _, h3, h4, _⟩ := hk
    rw [hb] at h1
    have hr : rootOf (st'.addC s) (some n) = n := rfl
    rw [hr] at h1 h2 h3
    have hR : Ready st2 P2 (G'.set n { gn with key := some e }) v (some n) A :=
      ⟨h1, h4 h.ready.addC.cok, h2, fun a ha => by cases ha; simp⟩
    have hup : (st'.addC s).nn = st'.nn := rfl
    have hvp : (st'.addC s).nv = st'.nv := rfl
    have u1 := h3.nn
    have u2 := h3.nv
    have u3 := h.upn
    have u4 := h.upv
    have u5 := h.nv
    have u6 := h.nn
    refine ⟨_, ⟨hR, hR.shows ((h.ready.unf h.shows).set_top hn rfl), ?_, ⟨_, Graph.set_same _ _ _, hp⟩, h.nv, h.nn, ?_, ?_, ?_, by omega, by omega⟩,
      by simp [Graph.keyOf]⟩
    · intro b y hy
      rw [Graph.set_apply] at hy
      split at hy
      · cases hy; exact h.tidy n gn hn
      · exact h.tidy b y hy
    · intro c hc
      rw [Graph.set_ne _ _ (by omega)]
      exact h.low c hc
    · intro c gc k hc hg hm
      rw [Graph.set_apply] at hg
      split at hg
      · cases hg; exact h.closed n gn k h.nn hn hm
      · exact h.closed c gc k hc hg hm
    · intro i hi
      rw [h3.vals i (by omega) (by omega)]
      exact h.vals i hi
  have ha : AcceptsKey G' (some n) := fun b gb f e hb hf => by
    cases e; rw [hn] at hb; cases hb; rw [hp] at hf; cases hf
  cases w with
  | raw s =>
    have hR := h.ready.addC (d := s ++ [0])
    obtain ⟨st2, e1, e2⟩ := (setKeyC_run hR.inv hR.val hR.node (addC_cstr (IsSetBody.no_nul hw))).1 hw ha
    obtain ⟨G2, e3, e4⟩ := fin e2
    refine ⟨st2, _, G2, s, ?_, rfl, e3, e4⟩
    unfold Word.setKey
    mstep callerText_run _ _
    exact e1
  | text s =>
    have hR := h.ready.addC (d := s ++ [0])
    obtain ⟨st2, e1, e2⟩ := (setKeyEscape_run hR.inv hR.val hR.node (addC_cstr hw)).1 ha
    obtain ⟨G2, e3, e4⟩ := fin e2
    refine ⟨st2, _, G2, _, ?_, ⟨(escBytes_set s).body, escBytes_denotes s⟩, e3, e4⟩
    unfold Word.setKey
    mstep callerText_run _ _
    exact e1

/-- The container as it is after another value was built. -/
theorem BuiltNew.still (h : BuiltNew st st1 G P1 G1 A v n t) (h2 : BuiltNew st1 st2 G1 P2 G2 A w k u) :
    BuiltNew st st2 G P2 G2 A v n t := by
  obtain ⟨gn, hn, hp⟩ := h.root
  have hlt : ∀ {c gc}, G1 c = some gc → G2 c = some gc := fun {c gc} hc => by
    rw [h2.low c (h.ready.inv.lt hc)]; exact hc
  have hv := h.ready.inv.ok.val_lt h.ready.val
  have hR : Ready st2 P2 G2 v (some n) A :=
    ⟨h2.ready.inv, h2.ready.cok, by rw [h2.vals v hv]; exact h.ready.val, fun a ha => by cases ha; rw [hlt hn]; rfl⟩
  have u1 := h.upn
  have u2 := h.upv
  have u3 := h2.upn
  have u4 := h2.upv
  refine ⟨hR, hR.shows ((h.ready.unf h.shows).mono fun c gc hc => hlt hc), h2.tidy, ⟨gn, hlt hn, hp⟩, h.nv, h.nn, ?_, ?_, ?_, by omega, by omega⟩
  · intro c hc
    rw [h2.low c (by omega)]
    exact h.low c hc
  · intro c gc k hc hg hm
    by_cases e : c < st1.nn
    · rw [h2.low c e] at hg
      exact h.closed c gc k hc hg hm
    · have := h2.closed c gc k (by omega) hg hm
      omega
  · intro i hi
    rw [h2.vals i (by omega)]
    exact h.vals i hi

/-- The container after the value was joined to it. -/
theorem BuiltNew.joined {o : Bool} {kids : List Addr} {gf gx : GNode} {key : Option Bytes} (h : BuiltNew st st1 G P1 G1 A v n t) (h2 : BuiltNew st1 st2 G1 P2 G2 A w k u)
    (hf : G2 n = some gf) (hgf : gf.val = .con o kids) (hx : G2 k = some gx)
    (hD : Did (· = w) (fun _ => False) st2 st' P2 P2 G2 ((G2.set k { gx with key := key }).attach n k o kids))
    (hE : EditAt G2 ((G2.set k { gx with key := key }).attach n k o kids) n t') :
    BuiltNew st st' G P2 ((G2.set k { gx with key := key }).attach n k o kids) A v n t' ∧
      ((G2.set k { gx with key := key }).attach n k o kids).keyOf n = G1.keyOf n ∧ ∀ i, i < st1.nv → st'.vals i = st1.vals i := by
  have hs := h.still h2
  have hnk : n ≠ k := by
    have := h.ready.inv.lt (Option.isSome_iff_exists.1 (h.ready.node n rfl)).choose_spec
    have := h2.nn
    omega
  have hvw : v ≠ w := by
    have := h.ready.inv.ok.val_lt h.ready.val
    have := h2.nv
    omega
  have hkn : st.nn ≤ k := Nat.le_trans h.upn h2.nn
  have hR := hD.ready hs.ready hvw (fun c hc => hE.some (hs.ready.node c hc))
  have hfn : ((G2.set k { gx with key := key }).attach n k o kids) n = some { gf with val := .con o (kids ++ [k]), endOK := true } := by
    unfold Graph.attach
    rw [if_neg hnk, if_pos rfl, Graph.set_ne _ _ hnk, hf]
    rfl
  obtain ⟨gn, hgn, hp⟩ := hs.root
  rw [hf] at hgn; cases hgn
  have u1 := hD.frame.nn
  have u2 := hD.frame.nv
  have u3 := hs.upn
  have u4 := hs.upv
  have hn1 : G1 n = some gf := by
    obtain ⟨g, hg, _⟩ := h.root
    rw [← h2.low n (h.ready.inv.lt hg)]; exact hf
  refine ⟨⟨hR, hR.shows hE.doc, attach_tidy ?_, ⟨_, hfn, hp⟩, h.nv, h.nn, ?_, ?_, ?_, by omega, by omega⟩, by simp [Graph.keyOf, hfn, hn1],
    fun i hi => by have := h2.nv; have := h2.upv; rw [hD.frame.vals i (by omega) (by omega)]; exact h2.vals i hi⟩
  · intro c z hz
    rw [Graph.set_apply] at hz
    split at hz
    · cases hz; exact h2.tidy k gx hx
    · exact h2.tidy c z hz
  · intro c hc
    unfold Graph.attach
    have := h.nn
    rw [if_neg (by omega), if_neg (by omega), Graph.set_ne _ _ (by omega)]
    exact hs.low c hc
  · intro c gc m hc hg hm
    unfold Graph.attach at hg
    split at hg
    · rename_i e; subst e
      rw [Graph.set_same] at hg
      cases hg
      exact hs.closed _ gx m hc hx hm
    · split at hg
      · rename_i e1 e2; subst e2
        rw [Graph.set_ne _ _ e1, hf] at hg
        cases hg
        rcases List.mem_append.1 hm with hm | hm
        · exact hs.closed _ gf m hc hf (by rw [hgf]; exact hm)
        · rw [List.mem_singleton.1 hm]; exact hkn
      · rename_i e1 e2
        rw [Graph.set_ne _ _ e1] at hg
        exact hs.closed c gc m hc hg hm
  · intro i hi
    have := h2.nv
    rw [hD.frame.vals i (by omega) (by have := h.upv; omega)]
    exact hs.vals i hi

/-- `zj_ArrayAddFast` of the value that was built last. -/
theorem BuiltNew.add {xs : List Json} (h : BuiltNew st st1 G P1 G1 A v n (.arr xs)) (h2 : BuiltNew st1 st2 G1 P2 G2 A w k u) :
    ∃ st' G', arrayAddFast v w st2 = .ok (true, st') ∧ BuiltNew st st' G P2 G' A v n (.arr (xs ++ [u])) ∧
      G'.keyOf n = G1.keyOf n ∧ ∀ i, i < st1.nv → st'.vals i = st1.vals i := by
  have hs := h.still h2
  obtain ⟨gx, hgx, hp⟩ := h2.root
  obtain ⟨gf, kids, ms, hf, hgf, hi, hms⟩ := hs.ready.arr hs.shows
  have hnk : n < st1.nn := h.ready.inv.lt (Option.isSome_iff_exists.1 (h.ready.node n rfl)).choose_spec
  have hn : ¬ Reach G2 k n := fun hr => by have := h2.below hr h2.nn; omega
  have hfx : n ≠ k := fun e => hn (e ▸ .refl)
  have he : kids = [] ∨ gf.endOK = true := (h2.tidy n gf hf).1.imp (by rw [hgf]; exact id) id
  obtain ⟨st', hrun, hD, _⟩ := arrayAddFast_run hs.ready.inv hs.ready.val h2.ready.val hf hgf (.root hgx hp) hgx ⟨⟨gf, hf, hgf, he⟩, hn⟩
  obtain ⟨st3, _, hD2, _⟩ := clearKey_run hs.ready.inv hgx hp
  have huf : Unf G2 n (mkCon false ms) := .mk hf (by rw [hgf]; exact .con hi)
  obtain ⟨hE, _⟩ := hD2.inv.attach_edit (f := n) (x := k) (o := false) (kids := kids)
    (by rw [Graph.set_ne _ _ hfx]; exact hf) hgf (Graph.set_same _ _ _)
    (fun h => hn (Reach.set_same (gn' := { gx with key := none }) hgx rfl h)) (key := []) ⟨rfl, rfl⟩
    (huf.set_ne (fun h => hfx (hs.ready.inv.above_root hgx hp h))) (Unf.set_top (h2.ready.unf h2.shows) hgx rfl)
  have hE' := hE.rekey hs.ready.inv hgx hp
  have hm : mkCon false (ms ++ [([], u)]) = .arr (xs ++ [u]) := by simp [mkCon, hms]
  rw [hm] at hE'
  exact ⟨st', _, hrun, h.joined h2 hf hgf hgx hD hE'⟩

/-- `zj_ObjAddFast` of the value that was built last. -/
theorem BuiltNew.put {ms : List (Bytes × Json)} {e : Bytes} (h : BuiltNew st st1 G P1 G1 A v n (.obj ms)) (h2 : BuiltNew st1 st2 G1 P2 G2 A w k u)
    (hk : G2.keyOf k = some e) :
    ∃ st' G', objAddFast v w st2 = .ok (true, st') ∧ BuiltNew st st' G P2 G' A v n (.obj (ms ++ [(e, u)])) ∧
      G'.keyOf n = G1.keyOf n ∧ ∀ i, i < st1.nv → st'.vals i = st1.vals i := by
  have hs := h.still h2
  obtain ⟨gx, hgx, hp⟩ := h2.root
  obtain ⟨gf, kids, hf, hgf, hi⟩ := hs.ready.obj hs.shows
  have hnk : n < st1.nn := h.ready.inv.lt (Option.isSome_iff_exists.1 (h.ready.node n rfl)).choose_spec
  have hn : ¬ Reach G2 k n := fun hr => by have := h2.below hr h2.nn; omega
  have he : kids = [] ∨ gf.endOK = true := (h2.tidy n gf hf).1.imp (by rw [hgf]; exact id) id
  have hkx : gx.key = some e := by simpa [Graph.keyOf, hgx] using hk
  obtain ⟨st', hrun, hD, _⟩ := objAddFast_run hs.ready.inv hs.ready.val h2.ready.val hf hgf hgx (by simp [hkx]) (.root hgx hp) ⟨⟨gf, hf, hgf, he⟩, hn⟩
  have huf : Unf G2 n (mkCon true ms) := .mk hf (by rw [hgf]; exact .con hi)
  obtain ⟨hE, _⟩ := hs.ready.inv.attach_edit (f := n) (x := k) (o := true) (kids := kids) hf hgf hgx hn (key := e) hkx huf (h2.ready.unf h2.shows)
  have hsame : G2.set k { gx with key := gx.key } = G2 := by
    funext c
    rw [Graph.set_apply]
    split
    · rename_i e; subst e; exact hgx.symm
    · rfl
  rw [← hsame] at hD
  have hE' : EditAt G2 ((G2.set k { gx with key := gx.key }).attach n k true kids) n (.obj (ms ++ [(e, u)])) := by rw [hsame]; exact hE
  refine ⟨st', _, hrun, h.joined h2 hf hgf hgx ?_ hE'⟩
  rw [hsame] at hD ⊢
  exact hD

mutual
/-- C79: the value that is built is the one wanted, all calls return true, and whatever there was
before is as it was. -/
theorem C79_build : ∀ {q : Plan} {st : St} {P : Addr → Prop} {G : Graph}, Site st P G A → q.OK →
    ∃ v n st' P' G' t, q.build A st = .ok ((v, true), st') ∧ q.Is t ∧ BuiltNew st st' G P' G' A v n t
  | .null, st, P, G, h, _ => by
    have hR : Ready (st.addV A none) P G st.nv none A :=
      ⟨h.inv.unchanged unch_addV (h.inv.ok.addV h.alloc), h.cok.frame h.inv.ok unch_addV.1 rfl, by simp [St.addV, upd], fun _ h => by cases h⟩
    obtain ⟨st', e1, e2⟩ := setNull_run hR.inv hR.val hR.node
    refine ⟨_, _, st', _, _, _, ?_, .null, .leaf h unch_addV rfl (Nat.lt_succ_self _) rfl (e2.setTo hR.inv.ok)⟩
    unfold Plan.build newValue
    mstep newVal_run h.alloc
    mstep e1
    rfl
  | .bool b, st, P, G, h, _ => by
    have hR : Ready (st.addV A none) P G st.nv none A :=
      ⟨h.inv.unchanged unch_addV (h.inv.ok.addV h.alloc), h.cok.frame h.inv.ok unch_addV.1 rfl, by simp [St.addV, upd], fun _ h => by cases h⟩
    obtain ⟨st', e1, e2⟩ := setBool_run hR.inv hR.val hR.node b
    refine ⟨_, _, st', _, _, _, ?_, .bool, .leaf h unch_addV rfl (Nat.lt_succ_self _) rfl (e2.setTo hR.inv.ok)⟩
    unfold Plan.build newValue
    mstep newVal_run h.alloc
    mstep e1
    rfl
  | .int n, st, P, G, h, ho => by
    have hR : Ready (st.addV A none) P G st.nv none A :=
      ⟨h.inv.unchanged unch_addV (h.inv.ok.addV h.alloc), h.cok.frame h.inv.ok unch_addV.1 rfl, by simp [St.addV, upd], fun _ h => by cases h⟩
    have ho : -9223372036854775808 ≤ n ∧ n ≤ 9223372036854775807 := by simpa [Plan.OK] using ho
    obtain ⟨st', e1, e2, _⟩ := setLongLong_run hR.inv hR.val hR.node (n := n) (by unfold InRange; omega)
    refine ⟨_, _, st', _, _, _, ?_, .int (decimal_fmt n), .leaf h unch_addV rfl (Nat.lt_succ_self _) rfl e2⟩
    unfold Plan.build newValue
    mstep newVal_run h.alloc
    mstep e1
    rfl
  | .num s, st, P, G, h, ho => by
    have hR : Ready (st.addV A none) P G st.nv none A :=
      ⟨h.inv.unchanged unch_addV (h.inv.ok.addV h.alloc), h.cok.frame h.inv.ok unch_addV.1 rfl, by simp [St.addV, upd], fun _ h => by cases h⟩
    have hR2 := hR.addC (d := s ++ [0])
    have ho : IsNum s := by simpa [Plan.OK] using ho
    have hu : Unchanged st ((st.addV A none).addC (s ++ [0])) := unch_addV.trans addC_unch
    rcases setNumStr_run hR2.inv hR2.val hR2.node (addC_cstr ho.no_nul) with ⟨_, st', e1, e2⟩ | ⟨hn, _⟩
    · refine ⟨_, _, st', _, _, _, ?_, .num, .leaf h hu rfl (Nat.lt_succ_self _) rfl e2⟩
      unfold Plan.build newValue
      mstep newVal_run h.alloc
      mstep callerText_run _ _
      mstep e1
      rfl
    · exact absurd ho hn
  | .str (.raw s), st, P, G, h, ho => by
    have hR : Ready (st.addV A none) P G st.nv none A :=
      ⟨h.inv.unchanged unch_addV (h.inv.ok.addV h.alloc), h.cok.frame h.inv.ok unch_addV.1 rfl, by simp [St.addV, upd], fun _ h => by cases h⟩
    have hR2 := hR.addC (d := s ++ [0])
    have ho : IsSetBody s := by simpa [Plan.OK, Word.OK] using ho
    have hu : Unchanged st ((st.addV A none).addC (s ++ [0])) := unch_addV.trans addC_unch
    rcases setStr_run hR2.inv hR2.val hR2.node (addC_cstr ho.no_nul) with ⟨_, st', e1, e2⟩ | ⟨hn, _⟩
    · refine ⟨_, _, st', _, _, _, ?_, .str (w := .raw s) rfl, .leaf h hu rfl (Nat.lt_succ_self _) rfl e2⟩
      have e0 : Word.setStr (.raw s) st.nv (st.addV A none) = .ok (true, st') := (M.bind_ok (callerText_run _ _)).trans e1
      unfold Plan.build newValue
      mstep newVal_run h.alloc
      mstep e0
      rfl
    · exact absurd ho hn
  | .str (.text s), st, P, G, h, ho => by
    have hR : Ready (st.addV A none) P G st.nv none A :=
      ⟨h.inv.unchanged unch_addV (h.inv.ok.addV h.alloc), h.cok.frame h.inv.ok unch_addV.1 rfl, by simp [St.addV, upd], fun _ h => by cases h⟩
    have hR2 := hR.addC (d := s ++ [0])
    have ho : (0 : Byte) ∉ s := by simpa [Plan.OK, Word.OK] using ho
    have hu : Unchanged st ((st.addV A none).addC (s ++ [0])) := unch_addV.trans addC_unch
    obtain ⟨st', e1, e2⟩ := setStrEscape_run hR2.inv hR2.val hR2.node (addC_cstr ho)
    refine ⟨_, _, st', _, _, _, ?_, .str (w := .text s) ⟨(escBytes_set s).body, escBytes_denotes s⟩, .leaf h hu rfl (Nat.lt_succ_self _) rfl e2⟩
    have e0 : Word.setStr (.text s) st.nv (st.addV A none) = .ok (true, st') := (M.bind_ok (callerText_run _ _)).trans e1
    unfold Plan.build newValue
    mstep newVal_run h.alloc
    mstep e0
    rfl
  | .arr xs, st, P, G, h, ho => by
    have hR : Ready (st.addV A none) P G st.nv none A :=
      ⟨h.inv.unchanged unch_addV (h.inv.ok.addV h.alloc), h.cok.frame h.inv.ok unch_addV.1 rfl, by simp [St.addV, upd], fun _ h => by cases h⟩
    obtain ⟨st1, e1, e2⟩ := setArray_run hR.inv hR.val hR.node
    have hm := BuiltNew.leaf h unch_addV rfl (Nat.lt_succ_self _) rfl (e2.setTo hR.inv.ok)
    obtain ⟨st', P', G', ts, f1, f2, f3⟩ := C79_elems (xs := xs) hm (by simpa [Plan.OK] using ho)
    refine ⟨_, _, st', P', G', _, ?_, .arr f2, f3⟩
    unfold Plan.build newValue
    mstep newVal_run h.alloc
    mstep e1
    mstep f1
    rfl
  | .obj ms, st, P, G, h, ho => by
    have hR : Ready (st.addV A none) P G st.nv none A :=
      ⟨h.inv.unchanged unch_addV (h.inv.ok.addV h.alloc), h.cok.frame h.inv.ok unch_addV.1 rfl, by simp [St.addV, upd], fun _ h => by cases h⟩
    obtain ⟨st1, e1, e2⟩ := setObj_run hR.inv hR.val hR.node
    have hm := BuiltNew.leaf h unch_addV rfl (Nat.lt_succ_self _) rfl (e2.setTo hR.inv.ok)
    obtain ⟨st', P', G', ts, f1, f2, f3⟩ := C79_members (ms := ms) hm (by simpa [Plan.OK] using ho)
    refine ⟨_, _, st', P', G', _, ?_, .obj f2, f3⟩
    unfold Plan.build newValue
    mstep newVal_run h.alloc
    mstep e1
    mstep f1
    rfl
/-- The elements are appended in their order. -/
theorem C79_elems : ∀ {xs : List Plan} {ys : List Json} {st st1 : St} {G G1 : Graph} {P1 : Addr → Prop} {v n : Addr},
    BuiltNew st st1 G P1 G1 A v n (.arr ys) → Plan.AllOK xs →
    ∃ st' P' G' ts, Plan.elems A v xs st1 = .ok (true, st') ∧ Plan.Are xs ts ∧ BuiltNew st st' G P' G' A v n (.arr (ys ++ ts))
  | [], ys, st, st1, G, G1, P1, v, n, h, _ => ⟨st1, P1, G1, [], by unfold Plan.elems; rfl, .nil, by simpa using h⟩
  | x :: xs, ys, st, st1, G, G1, P1, v, n, h, ho => by
    obtain ⟨o1, o2⟩ : x.OK ∧ Plan.AllOK xs := by simpa [Plan.AllOK] using ho
    obtain ⟨w, k, st2, P2, G2, u, e1, e2, e3⟩ := C79_build h.site o1
    obtain ⟨st3, G3, f1, f2, _⟩ := h.add e3
    obtain ⟨st', P', G', ts, g1, g2, g3⟩ := C79_elems (xs := xs) f2 o2
    refine ⟨st', P', G', u :: ts, ?_, .cons e2 g2, by simpa using g3⟩
    unfold Plan.elems
    mstep e1
    mstep f1
    mstep g1
    rfl
/-- The members are appended in their order. -/
theorem C79_members : ∀ {ms : List (Word × Plan)} {ys : List (Bytes × Json)} {st st1 : St} {G G1 : Graph} {P1 : Addr → Prop} {v n : Addr},
    BuiltNew st st1 G P1 G1 A v n (.obj ys) → Plan.MembersOK ms →
    ∃ st' P' G' ts, Plan.members A v ms st1 = .ok (true, st') ∧ Plan.Have ms ts ∧ BuiltNew st st' G P' G' A v n (.obj (ys ++ ts))
  | [], ys, st, st1, G, G1, P1, v, n, h, _ => ⟨st1, P1, G1, [], by unfold Plan.members; rfl, .nil, by simpa using h⟩
  | (w, x) :: ms, ys, st, st1, G, G1, P1, v, n, h, ho => by
    obtain ⟨o0, o1, o2⟩ : w.OK ∧ x.OK ∧ Plan.MembersOK ms := by simpa [Plan.MembersOK] using ho
    obtain ⟨y, k, st2, P2, G2, u, e1, e2, e3⟩ := C79_build h.site o1
    obtain ⟨st3, P3, G3, e, k1, k2, k3, k4⟩ := e3.key o0
    obtain ⟨st4, G4, f1, f2, _⟩ := h.put k3 k4
    obtain ⟨st', P', G', ts, g1, g2, g3⟩ := C79_members (ms := ms) f2 o2
    refine ⟨st', P', G', (e, u) :: ts, ?_, .cons k2 e2 g2, by simpa using g3⟩
    unfold Plan.members
    mstep e1
    mstep k1
    mstep f1
    mstep g1
    rfl
end

/-- C79: the documents of other handles stay as they are while a value is built. -/
theorem C79_others (h : BuiltNew st st' G P' G' A v n t) {B : Nat} (hw : Ready st P G w (some k) B) (hs : Shows st w u) :
    Shows st' w u ∧ Ready st' P' G' w (some k) B ∧ w ≠ v := by
  have hl := hw.inv.ok.val_lt hw.val
  have hle : G.le G' := fun c gc hc => by rw [h.low c (hw.inv.lt hc)]; exact hc
  obtain ⟨gk, hk⟩ := Option.isSome_iff_exists.1 (hw.node k rfl)
  have hR : Ready st' P' G' w (some k) B :=
    ⟨h.ready.inv, h.ready.cok, by rw [h.vals w hl]; exact hw.val, fun a ha => by cases ha; rw [hle _ _ hk]; rfl⟩
  exact ⟨hR.shows ((hw.unf hs).mono hle), hR, by have := h.nv; omega⟩

mutual
/-- What is wanted is JSON. -/
theorem Plan.Is.valid : ∀ {q : Plan} {t : Json}, q.Is t → q.OK → t.Valid
  | _, _, .null, _ => trivial
  | _, _, .bool, _ => trivial
  | .num s, _, .num, h => show IsNum s by simpa [Plan.OK] using h
  | _, _, .int hd, _ => hd.num
  | .str (.raw s), _, .str h, ho => by
    cases h
    exact IsSetBody.body (by simpa [Plan.OK, Word.OK] using ho)
  | .str (.text s), _, .str h, _ => h.1
  | _, _, .arr h, ho => Plan.Are.valid h (by simpa [Plan.OK] using ho)
  | _, _, .obj h, ho => Plan.Have.valid h (by simpa [Plan.OK] using ho)
theorem Plan.Are.valid : ∀ {xs : List Plan} {ts : List Json}, Plan.Are xs ts → Plan.AllOK xs → Json.ValidElems ts
  | _, _, .nil, _ => trivial
  | x :: xs, _, .cons h1 h2, ho => by
    obtain ⟨o1, o2⟩ : x.OK ∧ Plan.AllOK xs := by simpa [Plan.AllOK] using ho
    exact ⟨Plan.Is.valid h1 o1, Plan.Are.valid h2 o2⟩
theorem Plan.Have.valid : ∀ {ms : List (Word × Plan)} {ns : List (Bytes × Json)}, Plan.Have ms ns → Plan.MembersOK ms →
    Json.ValidMembers ns
  | _, _, .nil, _ => trivial
  | (w, x) :: ms, _, .cons h0 h1 h2, ho => by
    obtain ⟨o0, o1, o2⟩ : w.OK ∧ x.OK ∧ Plan.MembersOK ms := by simpa [Plan.MembersOK] using ho
    refine ⟨?_, Plan.Is.valid h1 o1, Plan.Have.valid h2 o2⟩
    cases w with
    | raw s => cases h0; exact IsSetBody.body o0
    | text s => exact h0.1
end

/-- The state after `zj_NewAllocator`. -/
def opened (slack : Nat → Nat) (cfg : Cfg) : St :=
  { St.init slack cfg with allocs := upd (fun _ => false) 0 true, na := 1, log := [.new 0] }

theorem opened_site (slack : Nat → Nat) (cfg : Cfg) : Site (opened slack cfg) (fun _ => False) (fun _ => none) 0 where
  inv := {
    ok := ⟨fun _ _ => rfl, fun _ _ => rfl, fun _ _ => rfl, fun _ _ h => (by cases h), fun _ _ h => (by cases h), fun _ h => (by cases h)⟩
    pin := fun _ h => h.elim
    rep := fun _ _ h => by cases h
    fin := fun _ _ h => by cases h }
  cok := fun _ h => by cases h
  alloc := rfl
  tidy := fun _ _ h => by cases h

/-- C79 for whole programs: the document is built and printed. The text is the printed form of a
document as wanted, so it is JSON, and whoever parses it gets that document. -/
theorem C79_program (slack : Nat → Nat) {cfg : Cfg} {q : Plan} (hq : q.OK) :
    ∃ c t, q.Is t ∧ JText t t.print ∧ ∀ fuel, c ≤ fuel → ((do
      let A ← newAllocator
      let (v, r) ← q.build A
      let s ← stringify fuel v
      let y ← readN s t.print.length
      return (r, y) : M _) (St.init slack cfg)).out = .ok (true, t.print) := by
  obtain ⟨v, n, st1, P1, G1, t, h1, h2, h3⟩ := C79_build (opened_site slack cfg) hq
  obtain ⟨c, s, st2, h4, h5, _, _, h6⟩ := C09_stringify h3.ready h3.shows
  refine ⟨c, t, h2, print_text (h2.valid hq), fun fuel hf => ?_⟩
  have hrun : (do
      let (v, r) ← q.build 0
      let s ← stringify fuel v
      let y ← readN s t.print.length
      return (r, y) : M _) (opened slack cfg) = .ok ((true, t.print), st2) := by
    mstep h1
    mstep h4 fuel hf
    mstep h5.reads h6.inv.ok
    rfl
  exact congrArg Res.out hrun

mutual
/-- How to build a given document. -/
def Json.plan : Json → Plan
  | .null => .null
  | .bool b => .bool b
  | .num s => .num s
  | .str s => .str (.raw s)
  | .arr xs => .arr (Json.plans xs)
  | .obj ms => .obj (Json.planMembers ms)
def Json.plans : List Json → List Plan
  | [] => []
  | x :: xs => x.plan :: Json.plans xs
def Json.planMembers : List (Bytes × Json) → List (Word × Plan)
  | [] => []
  | (k, x) :: ms => (.raw k, x.plan) :: Json.planMembers ms
end

mutual
/-- No string or key has a `\u` escape of E000 or more, which `zj_SetStr` and `zj_SetKey` refuse (C15). -/
def Json.NoHigh : Json → Prop
  | .str s => NoHighEscape s
  | .arr xs => Json.NoHighElems xs
  | .obj ms => Json.NoHighMembers ms
  | _ => True
def Json.NoHighElems : List Json → Prop
  | [] => True
  | x :: xs => x.NoHigh ∧ Json.NoHighElems xs
def Json.NoHighMembers : List (Bytes × Json) → Prop
  | [] => True
  | (k, x) :: ms => NoHighEscape k ∧ x.NoHigh ∧ Json.NoHighMembers ms
end

mutual
theorem plan_ok : ∀ {t : Json}, t.Valid → t.NoHigh → t.plan.OK
  | .null, _, _ => by simp [Json.plan, Plan.OK]
  | .bool _, _, _ => by simp [Json.plan, Plan.OK]
  | .num s, h, _ => by
    have h : IsNum s := h
    simpa [Json.plan, Plan.OK] using h
  | .str _, h, h' => by
    have := isSetBody_iff.2 ⟨(show IsStrBody _ from h), (by simpa [Json.NoHigh] using h')⟩
    simpa [Json.plan, Plan.OK, Word.OK] using this
  | .arr xs, h, h' => by
    have := plans_ok (xs := xs) h (by simpa [Json.NoHigh] using h')
    simpa [Json.plan, Plan.OK] using this
  | .obj ms, h, h' => by
    have := planMembers_ok (ms := ms) h (by simpa [Json.NoHigh] using h')
    simpa [Json.plan, Plan.OK] using this
theorem plans_ok : ∀ {xs : List Json}, Json.ValidElems xs → Json.NoHighElems xs → Plan.AllOK (Json.plans xs)
  | [], _, _ => by simp [Json.plans, Plan.AllOK]
  | x :: xs, h, h' => by
    obtain ⟨o1, o2⟩ : x.NoHigh ∧ Json.NoHighElems xs := by simpa [Json.NoHighElems] using h'
    have a := plan_ok h.1 o1
    have b := plans_ok h.2 o2
    simp only [Json.plans, Plan.AllOK]
    exact ⟨a, b⟩
theorem planMembers_ok : ∀ {ms : List (Bytes × Json)}, Json.ValidMembers ms → Json.NoHighMembers ms → Plan.MembersOK (Json.planMembers ms)
  | [], _, _ => by simp [Json.planMembers, Plan.MembersOK]
  | (k, x) :: ms, h, h' => by
    obtain ⟨o0, o1, o2⟩ : NoHighEscape k ∧ x.NoHigh ∧ Json.NoHighMembers ms := by simpa [Json.NoHighMembers] using h'
    have a := plan_ok h.2.1 o1
    have b := planMembers_ok h.2.2 o2
    simp only [Json.planMembers, Plan.MembersOK]
    exact ⟨isSetBody_iff.2 ⟨h.1, o0⟩, a, b⟩
end

mutual
theorem plan_is : ∀ {t u : Json}, t.plan.Is u → u = t
  | .null, _, h => by simp only [Json.plan] at h; cases h; rfl
  | .bool _, _, h => by simp only [Json.plan] at h; cases h; rfl
  | .num _, _, h => by simp only [Json.plan] at h; cases h; rfl
  | .str _, _, h => by
    simp only [Json.plan] at h
    cases h with
    | str h => cases h; rfl
  | .arr xs, _, h => by
    simp only [Json.plan] at h
    cases h with
    | arr h => rw [plans_are h]
  | .obj ms, _, h => by
    simp only [Json.plan] at h
    cases h with
    | obj h => rw [planMembers_have h]
theorem plans_are : ∀ {xs us : List Json}, Plan.Are (Json.plans xs) us → us = xs
  | [], _, h => by simp only [Json.plans] at h; cases h; rfl
  | x :: xs, _, h => by
    simp only [Json.plans] at h
    cases h with
    | cons h1 h2 => rw [plan_is h1, plans_are h2]
theorem planMembers_have : ∀ {ms us : List (Bytes × Json)}, Plan.Have (Json.planMembers ms) us → us = ms
  | [], _, h => by simp only [Json.planMembers] at h; cases h; rfl
  | (k, x) :: ms, _, h => by
    simp only [Json.planMembers] at h
    cases h with
    | cons h0 h1 h2 => cases h0; rw [plan_is h1, planMembers_have h2]
end

/-- C79: every document can be built, if its strings and keys have no escape that `zj_SetStr`
refuses (C15); printed, it is exactly that document. -/
theorem C79_every (slack : Nat → Nat) {cfg : Cfg} {t : Json} (ht : t.Valid) (hh : t.NoHigh) :
    ∃ c, ∀ fuel, c ≤ fuel → ((do
      let A ← newAllocator
      let (v, r) ← t.plan.build A
      let s ← stringify fuel v
      let y ← readN s t.print.length
      return (r, y) : M _) (St.init slack cfg)).out = .ok (true, t.print) := by
  obtain ⟨c, u, h1, _, h2⟩ := C79_program slack (cfg := cfg) (plan_ok ht hh)
  cases plan_is h1
  exact ⟨c, h2⟩

/-- An object with an array in it; the text has a quote and a line end that have to be escaped. -/
def somePlan : Plan := .obj [(.raw b!"a", .arr [.int (-7), .null, .arr []]), (.text [0x22, 0x0A], .str (.text [0x09])), (.raw b!"a", .num b!"1e5")]

example : somePlan.OK := by
  simp only [somePlan, Plan.OK, Plan.MembersOK, Plan.AllOK, Word.OK]
  exact ⟨.plain (by decide) (by decide) (by decide) .nil, ⟨by decide, trivial, trivial, trivial⟩, by decide, by decide,
    .plain (by decide) (by decide) (by decide) .nil,
    ⟨[], b!"1", [], b!"e5", by decide, .inl rfl, .inr ⟨0x31, [], rfl, by decide, by decide, by simp⟩, .inl rfl,
      .inr ⟨0x65, [], b!"5", by decide, .inl rfl, .inl rfl, by decide, by decide⟩⟩, trivial⟩

example : ((do
    let A ← newAllocator
    let (v, r) ← somePlan.build A
    let s ← stringify 99 v
    let y ← readN s 38
    return (r, y) : M _) (St.init fun _ => 0)).out
      = .ok (true, b!"{\"a\":[-7,null,[]],\"\\\"\\n\":\"\\t\",\"a\":1e5}") := by decide +kernel

end

end ZJ
