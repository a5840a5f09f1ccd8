import Verif.Readme
import Verif.PropHist
import Verif.PropUtf8

/-
C56: the deep copy of the README.
-/

set_option linter.unusedSimpArgs false
set_option linter.unusedVariables false

namespace ZJ

variable {st st' : St} {P P' : Addr → Prop} {s s' : Store} {v w a d A : Addr} {x : Option Addr} {gn : GNode} {G G' : Graph}
  {o : Bool} {t : Json}

/-! ### What the program copies -/

/-- No escape with a code unit of `E000` or more: the first of its hexadecimal digits is not
`e` or `f`. -/
def lowEscapes : Bytes → Bool
  | 0x5C :: 0x75 :: a :: _ :: _ :: _ :: r => !(a == 0x45 || a == 0x46 || a == 0x65 || a == 0x66) && lowEscapes r
  | 0x5C :: _ :: r => lowEscapes r
  | _ :: r => lowEscapes r
  | [] => true

mutual
/-- The document the program makes of a document, if any: no copy is made of a string with a high
escape. Of an array the elements before the first such string are copied. Of an object the
members before the first one with a high escape in the key are copied, and values that are
such strings become `null`. -/
def Json.cut : Json → Option Json
  | .str raw => if lowEscapes raw then some (.str raw) else none
  | .arr ts => some (.arr (Json.cutElems ts))
  | .obj ms => some (.obj (Json.cutMembers ms))
  | .num raw => some (.num raw)
  | .bool b => some (.bool b)
  | .null => some .null
def Json.cutElems : List Json → List Json
  | [] => []
  | t :: ts => match t.cut with
    | none => []
    | some u => u :: Json.cutElems ts
def Json.cutMembers : List (Bytes × Json) → List (Bytes × Json)
  | [] => []
  | (k, t) :: ms => if lowEscapes k then (k, t.cut.getD .null) :: Json.cutMembers ms else []
end

/-- The copy of a child of an array or an object, if it is added. -/
def cutItem (o : Bool) (m : Bytes × Json) : Option (Bytes × Json) :=
  if o then if lowEscapes m.1 then some (m.1, m.2.cut.getD .null) else none
  else m.2.cut.map fun u => (m.1, u)

def cutItems (o : Bool) : List (Bytes × Json) → List (Bytes × Json)
  | [] => []
  | m :: ms => match cutItem o m with
    | none => []
    | some m' => m' :: cutItems o ms

theorem cut_con : ∀ (xs : List (Bytes × Json)), (mkCon o xs).cut = some (mkCon o (cutItems o xs)) := by
  cases o with
  | true =>
    intro xs
    have : Json.cutMembers xs = cutItems true xs := by
      induction xs with
      | nil => rfl
      | cons m ms ih =>
        obtain ⟨k, t⟩ := m
        simp only [Json.cutMembers, cutItems, cutItem, if_true, ih]
        split <;> rfl
    show (Json.obj xs).cut = some (.obj _)
    rw [Json.cut, this]
  | false =>
    intro xs
    have : Json.cutElems (xs.map (·.2)) = (cutItems false xs).map (·.2) := by
      induction xs with
      | nil => rfl
      | cons m ms ih =>
        simp only [List.map_cons, Json.cutElems, cutItems, cutItem, Bool.false_eq_true, if_false, ih]
        cases m.2.cut <;> rfl
    show (Json.arr _).cut = some (.arr _)
    rw [Json.cut, this]

theorem lowEscapes_esc {c : Byte} {r : Bytes} (h : c ≠ 0x75) : lowEscapes (0x5C :: c :: r) = lowEscapes r := by
  rw [lowEscapes]
  intros; contradiction

theorem lowEscapes_plain {c : Byte} {r : Bytes} (h : c ≠ 0x5C) : lowEscapes (c :: r) = lowEscapes r := by
  rw [lowEscapes]
  · rintro _ _ _ _ _ rfl; exact absurd rfl h
  · rintro _ _ rfl; exact absurd rfl h

theorem hex_low {a b c d : Byte} {n : Nat} (h : Hex4 a b c d n) :
    (!(a == 0x45 || a == 0x46 || a == 0x65 || a == 0x66)) = true ↔ n < 0xE000 := by
  obtain ⟨x, y, z, w, h1, h2, h3, h4, rfl⟩ := h
  have ha : ∀ a : Byte, ((hexVal a).all fun x => (!(a == 0x45 || a == 0x46 || a == 0x65 || a == 0x66)) == decide (x < 14)) = true := by
    apply allBytes; decide +kernel
  have hb : ∀ a : Byte, ((hexVal a).all fun x => decide (x < 16)) = true := by apply allBytes; decide +kernel
  have h1' := ha a
  have h2' := hb b
  have h3' := hb c
  have h4' := hb d
  rw [h1] at h1'; rw [h2] at h2'; rw [h3] at h3'; rw [h4] at h4'
  simp only [Option.all_some, beq_iff_eq, decide_eq_true_eq] at h1' h2' h3' h4'
  rw [h1', decide_eq_true_eq]
  omega

/-- What the setters accept of the texts of a document. -/
theorem lowEscapes_iff {b : Bytes} (h : IsStrBody b) : lowEscapes b = true ↔ IsSetBody b := by
  rw [isSetBody_iff, and_iff_right h]
  induction h with
  | nil => simp [lowEscapes, NoHighEscape]
  | plain h1 h2 h3 _ ih =>
    rw [lowEscapes_plain h3, ih]
    conv => rhs; unfold NoHighEscape
    split <;> simp_all
  | esc h1 _ ih =>
    rename_i c x r _
    have : c ≠ 0x75 := by rintro rfl; rw [simpleEscape_not_u] at h1; cases h1
    rw [noHighEscape_esc this, lowEscapes_esc this, ih]
  | uni h1 h2 _ _ ih =>
    rw [lowEscapes, NoHighEscape, Bool.and_eq_true, ih, hex_low h1]
    exact and_congr_left fun _ => ⟨fun h n hn => by rw [hn.det h1]; exact h, fun h => h _ h1⟩
  | pair h1 h2 h3 h4 _ ih =>
    rw [lowEscapes, NoHighEscape, lowEscapes, NoHighEscape, Bool.and_eq_true, Bool.and_eq_true, ih, hex_low h1, hex_low h3]
    exact and_congr ⟨fun h n hn => by rw [hn.det h1]; exact h, fun h => h _ h1⟩
      (and_congr_left fun _ => ⟨fun h n hn => by rw [hn.det h3]; exact h, fun h => h _ h3⟩)

/-! ### What one copy leaves alone -/

/-- The nodes not in `N` and the handles not in `V` are in `s'` what they were in `s`. -/
structure Leaves (N V : Addr → Prop) (s s' : Store) : Prop where
  node : ∀ b y, ¬ N b → s.node b = some y → s'.node b = some y
  hnd : ∀ v y, ¬ V v → s.hnd v = some y → s'.hnd v = some y

theorem Leaves.refl {N V : Addr → Prop} : Leaves N V s s := ⟨fun _ _ _ h => h, fun _ _ _ h => h⟩

theorem Leaves.trans {s1 s2 s3 : Store} {N V N2 V2 N3 V3 : Addr → Prop} (h : Leaves N V s1 s2) (h' : Leaves N2 V2 s2 s3)
    (hN : ∀ b y, s1.node b = some y → ¬ N3 b → ¬ N b ∧ ¬ N2 b) (hV : ∀ b y, s1.hnd b = some y → ¬ V3 b → ¬ V b ∧ ¬ V2 b) :
    Leaves N3 V3 s1 s3 :=
  ⟨fun b y hn hb => h'.node b y (hN b y hb hn).2 (h.node b y (hN b y hb hn).1 hb),
    fun b y hn hb => h'.hnd b y (hV b y hb hn).2 (h.hnd b y (hV b y hb hn).1 hb)⟩

theorem Forest.top (hF : Forest G) {gd : GNode} (hp : gd.par = none) {a d : Addr} (hr : Reach G a d) : G d = some gd → a = d := by
  induction hr with
  | refl => exact fun _ => rfl
  | @step a gn k c ha hk hr ih =>
    intro hd
    have e := ih hd
    subst e
    cases hv : gn.val with
    | con o ks =>
      rw [hv] at hk
      obtain ⟨gk, h1, h2, _⟩ := (hF a gn o ks ha hv).2 _ hk
      rw [hd] at h1; cases h1
      rw [hp] at h2; cases h2
    | _ => rw [hv] at hk; simp [GVal.kids] at hk

/-- Nothing at or below `a` changed. -/
theorem SameBelow.leaves {N : Addr → Prop} (hu : ∃ t, Unf G a t) (h : ∀ b y, ¬ N b → G b = some y → G' b = some y)
    (hN : ∀ c, Reach G a c → ¬ N c) : SameBelow G G' a where
  val c gc hr hc := ⟨gc, h c gc (hN c hr) hc, rfl⟩
  key c gc k gk hr hc hk hg := ⟨gk, h k gk (hN k (hr.trans (.step hc hk .refl))) hg, rfl⟩

theorem Unf.leaves {N V : Addr → Prop} (h : Leaves N V s s') (hN : ∀ c, Reach s.node a c → ¬ N c) (hu : Unf s.node a t) :
    Unf s'.node a t :=
  hu.same (.leaves ⟨t, hu⟩ h.node hN)

theorem UnfI.leaves {N V : Addr → Prop} (h : Leaves N V s s') {ks xs} (hu : UnfI s.node o ks xs)
    (hN : ∀ k ∈ ks, ∀ c, Reach s.node k c → ¬ N c) : UnfI s'.node o ks xs :=
  hu.same (fun k hk => by obtain ⟨_, t, _, ht⟩ := hu.mem hk; exact .leaves ⟨t, ht⟩ h.node (hN k hk))
    (fun k gk hk hg => ⟨gk, h.node k gk (hN k hk k .refl) hg, rfl⟩)

/-! ### One value -/

/-- What `GetAndSet` has done: the node of `des` holds the document `t`, and nothing else
changed. -/
structure CopiedTo (st' : St) (P' : Addr → Prop) (s s' : Store) (des : Addr) (x : Option Addr) (A d : Addr) (gd : GNode) (t : Json) : Prop where
  wp : WP st' P' s'
  hnd : s'.hnd des = some ⟨some d, A⟩
  node : s'.node d = some gd
  key : gd.key = (baseNode s.node x).key
  par : gd.par = none
  doc : Unf s'.node d t
  leaves : Leaves (fun b => x = some b) (· = des) s s'
  at_ : x = some d ∨ x = none ∧ s.node d = none

/-- `GetAndSet` makes the copy of the document `t` it is said to make, or leaves everything as it
is. -/
def Copies (t : Json) : Prop :=
  ∀ (st : St) (P : Addr → Prop) (s : Store) (src des A a : Addr) (x : Option Addr), WP st P s →
    s.hnd src = some ⟨some a, A⟩ → Unf s.node a t → s.hnd des = some ⟨x, A⟩ →
    (∀ d, x = some d → d ≠ a ∧ ∀ g, s.node d = some g → g.par = none) →
    ∃ c st', (∀ F, c ≤ F → getAndSet F src des st = .ok ((), st')) ∧
      ((∃ u P' s' d gd, t.cut = some u ∧ CopiedTo st' P' s s' des x A d gd u) ∨ (t.cut = none ∧ ∃ P', WP st' P' s))

theorem CopiedTo.put {gv : GVal} {tl : Bool} {des : Addr} (h0 : WP st P s) (hd : s.hnd des = some ⟨x, A⟩)
    (hx : ∀ d, x = some d → ∀ g, s.node d = some g → g.par = none)
    (h : WP st' P' (s.put des A (rootOf st x) ((baseNode s.node x).put gv) tl))
    (hu : UnfV (s.node.set (rootOf st x) ((baseNode s.node x).put gv)) gv t) :
    CopiedTo st' P' s (s.put des A (rootOf st x) ((baseNode s.node x).put gv) tl) des x A (rootOf st x) ((baseNode s.node x).put gv) t where
  wp := h
  hnd := upd_same ..
  node := Graph.set_same ..
  key := rfl
  par := by
    cases x with
    | none => rfl
    | some d =>
      obtain ⟨g, hg⟩ := Option.isSome_iff_exists.1 (h0.has hd d rfl)
      have : baseNode s.node (some d) = g := by simp [baseNode, hg]
      show (baseNode s.node (some d)).par = none
      rw [this]; exact hx d rfl g hg
  doc := .mk (Graph.set_same ..) hu
  leaves := by
    refine ⟨fun b y hb hy => ?_, fun b y hb hy => (upd_ne _ _ hb).trans hy⟩
    refine (Graph.set_ne _ _ ?_).trans hy
    rintro rfl
    cases x with
    | none => exact absurd (h0.inv.lt hy) (Nat.lt_irrefl _)
    | some d => exact hb rfl
  at_ := by
    cases x with
    | none =>
      refine .inr ⟨rfl, ?_⟩
      cases hg : s.node (rootOf st none) with
      | none => rfl
      | some y => exact absurd (h0.inv.lt hg) (Nat.lt_irrefl _)
    | some d => exact .inl rfl

theorem Ofs.own {c : Addr} {off : Nat} (hp : Pers st st') (ho : ∃ bf, st.bufs c = some bf ∧ bf.owner = some A) :
    Ofs st' A (.buf c off) := by
  intro b o e bf hb
  cases e
  obtain ⟨bf0, e1, e2⟩ := ho
  obtain ⟨bf1, e3, e4⟩ := hp.bufs c bf0 e1
  rw [hb] at e3; cases e3
  exact .inr (e4.trans e2)

theorem addB_cstr {b : Bytes} (h : (0 : Byte) ∉ b) : CStr (st.addB A (b.length + 1) (b ++ [0])) (.buf st.nb 0) b :=
  ⟨h, [], _, addB_view⟩

theorem addB_own {sz : Nat} {b : Bytes} : ∃ bf, (st.addB A sz b).bufs st.nb = some bf ∧ bf.owner = some A :=
  ⟨_, by rw [addB_bufs, if_pos rfl], rfl⟩

theorem copies_null : Copies .null := by
  intro st P s src des A a x h hs hu hd hx
  obtain ⟨ha, hv⟩ := hu
  obtain ⟨st', e, hS⟩ := setNull_run h.inv (h.val hd) (h.has hd)
  have hn := hv.eq_null.2 rfl
  have hty := getType_run h.inv (h.val hs) ha
  have hin := isNull_run h.inv (h.val hs) ha
  rw [hn] at hty hin
  refine ⟨1, st', fun F hF => ?_, .inl ⟨_, P, _, _, _, rfl, CopiedTo.put h hd (fun d e => (hx d e).2) (h.stored hd e (hS.setTo h.inv.ok)
    (Tri.setNull (Pre := True) tkit_fine des fun _ => .inl rfl) (fun _ => trivial) (fun _ h => h.elim) (fun _ h => (nomatch h))
    (fun _ h => (nomatch h)) (tl := false) (fun h => (nomatch h))) (.scalar (gv := .null) rfl)⟩⟩
  obtain ⟨F, rfl⟩ : ∃ k, F = k + 1 := ⟨F - 1, by omega⟩
  simp only [getAndSet]
  refine (M.bind_ok hty).trans ?_
  refine (M.bind_ok hin).trans ?_
  exact e

theorem copies_bool {b : Bool} : Copies (.bool b) := by
  intro st P s src des A a x h hs hu hd hx
  obtain ⟨ha, hv⟩ := hu
  obtain ⟨st', e, hS⟩ := setBool_run h.inv (h.val hd) (h.has hd) b
  have hn := hv.bool_inv.2 b rfl
  have hty := getType_run h.inv (h.val hs) ha
  have hin := getBool_run h.inv (h.val hs) ha
  rw [hn] at hty hin
  refine ⟨1, st', fun F hF => ?_, .inl ⟨_, P, _, _, _, rfl, CopiedTo.put h hd (fun d e => (hx d e).2) (h.stored hd e (hS.setTo h.inv.ok)
    (Tri.setBool (Pre := True) tkit_fine des b fun _ => .inl rfl) (fun _ => trivial) (fun _ h => h.elim) (fun _ h => (nomatch h))
    (fun _ h => (nomatch h)) (tl := false) (fun h => (nomatch h))) (.scalar (gv := .bool b) rfl)⟩⟩
  obtain ⟨F, rfl⟩ : ∃ k, F = k + 1 := ⟨F - 1, by omega⟩
  simp only [getAndSet]
  refine (M.bind_ok hty).trans ?_
  refine (M.bind_ok hin).trans ?_
  exact e

theorem copies_str {raw : Bytes} : Copies (.str raw) := by
  intro st P s src des A a x h hs hu hd hx
  have hval : (Json.str raw).Valid := hu.valid h.valid
  obtain ⟨ha, hv⟩ := hu
  have hn := hv.str_inv
  have hbody : IsStrBody raw := hval
  have hty := getType_run h.inv (h.val hs) ha
  have hin := getStr_run h.inv (h.val hs) ha hn
  rw [hn] at hty
  have h1 : WP (st.addB A (raw.length + 1) (raw ++ [0])) (fun c => P c ∨ c = st.nb) s := h.addB_pin (by simp)
  rcases setStrFast_run h1.inv (h1.val hd) (h1.has hd) (addB_cstr hbody.no_nul) (fun _ _ e => by cases e; exact .inr rfl) with
    ⟨hset, st', e, hS⟩ | ⟨hno, e⟩
  · have T : Tri (tkit (st.addB A (raw.length + 1) (raw ++ [0])) st' A des (fun _ => False) false s.scrOK)
        (Pers (st.addB A (raw.length + 1) (raw ++ [0])) st') (setStrFast des (.buf st.nb 0)) Any :=
      Tri.setStrFast des _ (fun _ => .inl rfl) fun h => Ofs.own h addB_own
    refine ⟨1, st', fun F hF => ?_, .inl ⟨_, _, _, _, _, by rw [Json.cut, if_pos ((lowEscapes_iff hval).2 hset)]; rfl, CopiedTo.put h hd (fun d e => (hx d e).2) (h1.stored hd e hS T id (fun _ h => h.elim)
      (fun _ h => (nomatch h)) (fun _ e => by cases e; exact hset.body) (tl := false) (fun h => (nomatch h))) (.scalar (gv := .str raw) rfl)⟩⟩
    obtain ⟨F, rfl⟩ : ∃ k, F = k + 1 := ⟨F - 1, by omega⟩
    simp only [getAndSet]
    refine (M.bind_ok hty).trans ?_
    refine (M.bind_ok hin).trans ?_
    exact (M.bind_ok e).trans rfl
  · refine ⟨1, _, fun F hF => ?_, .inr ⟨by rw [Json.cut, if_neg fun h => hno ((lowEscapes_iff hval).1 h)], _, h1⟩⟩
    obtain ⟨F, rfl⟩ : ∃ k, F = k + 1 := ⟨F - 1, by omega⟩
    simp only [getAndSet]
    refine (M.bind_ok hty).trans ?_
    refine (M.bind_ok hin).trans ?_
    exact (M.bind_ok e).trans rfl

theorem copies_num {raw : Bytes} : Copies (.num raw) := by
  intro st P s src des A a x h hs hu hd hx
  have hval : (Json.num raw).Valid := hu.valid h.valid
  obtain ⟨ha, hv⟩ := hu
  have hn := hv.num_inv
  have hset : IsNum raw := hval
  have hty := getType_run h.inv (h.val hs) ha
  have hin := getNumStr_run h.inv (h.val hs) ha hn
  rw [hn] at hty
  have h1 : WP (st.addB A (raw.length + 1) (raw ++ [0])) (fun c => P c ∨ c = st.nb) s := h.addB_pin (by simp)
  rcases setNumStrFast_run h1.inv (h1.val hd) (h1.has hd) (addB_cstr hset.no_nul) (fun _ _ e => by cases e; exact .inr rfl) with
    ⟨_, st', e, hS⟩ | ⟨hno, _⟩
  · have T : Tri (tkit (st.addB A (raw.length + 1) (raw ++ [0])) st' A des (fun _ => False) false s.scrOK)
        (Pers (st.addB A (raw.length + 1) (raw ++ [0])) st') (setNumStrFast des (.buf st.nb 0)) Any :=
      Tri.setNumStrFast des _ (fun _ => .inl rfl) fun h => Ofs.own h addB_own
    refine ⟨1, st', fun F hF => ?_, .inl ⟨_, _, _, _, _, rfl, CopiedTo.put h hd (fun d e => (hx d e).2) (h1.stored hd e hS T id (fun _ h => h.elim)
      (fun _ e => by cases e; exact hset) (fun _ h => (nomatch h)) (tl := false) (fun h => (nomatch h))) (.scalar (gv := .num raw) rfl)⟩⟩
    obtain ⟨F, rfl⟩ : ∃ k, F = k + 1 := ⟨F - 1, by omega⟩
    simp only [getAndSet]
    refine (M.bind_ok hty).trans ?_
    refine (M.bind_ok hin).trans ?_
    exact (M.bind_ok e).trans rfl
  · exact absurd hset hno

/-! ### The children -/

/-- The key of the child is given to the new value. -/
theorem copy_key {k nxt : Addr} {gk : GNode} {key : Bytes} (h : WP st P s) (hn : s.hnd nxt = some ⟨some k, A⟩) (hk : s.node k = some gk)
    (hkey : KeyIs o gk.key key) (hv : s.hnd v = some ⟨none, A⟩) :
    ∃ st' P' s' x, readmeKey o nxt v st = .ok ((), st') ∧ WP st' P' s' ∧ Leaves (fun _ => False) (· = v) s s' ∧
      s'.hnd v = some ⟨x, A⟩ ∧ (x = none ∨ ∃ d, x = some d ∧ s.node d = none ∧ s'.node d = some { blank with key := some key }) ∧
      (x.isSome = true ↔ o = true ∧ lowEscapes key = true) := by
  cases o with
  | false => exact ⟨st, P, s, none, rfl, h, .refl, hv, .inl rfl, by simp⟩
  | true =>
    have hkey : gk.key = some key := hkey
    have hbody : IsStrBody key := h.valid.key k gk key hk hkey
    have h1 : WP (st.addB A (key.length + 1) (key ++ [0])) (fun c => P c ∨ c = st.nb) s := h.addB_pin (by simp)
    have hgk := (getKey_run h.inv (h.val hn) hk hkey).1
    have hacc : AcceptsKey s.node none := fun _ _ _ e => (nomatch e)
    have hrun := setKeyFast_run h1.inv (h1.val hv) (h1.has hv) (addB_cstr hbody.no_nul)
      (fun _ _ e => by cases e; exact .inr rfl)
    by_cases hset : IsSetBody key
    · obtain ⟨st', e, hK⟩ := hrun.1 hset hacc
      have T : Tri (tkit (st.addB A (key.length + 1) (key ++ [0])) st' A v (fun _ => False) false s.scrOK)
          (Pers (st.addB A (key.length + 1) (key ++ [0])) st') (setKeyFast v (.buf st.nb 0)) Any :=
        Tri.setKeyFast tkit_fine v _ (fun _ => .inl rfl) fun h => Ofs.own h addB_own
      have hT := h1.trace hv e T id (fun _ h => (nomatch h))
      have h2 := h1.keyTo hv hT hK (fun _ h => h.elim) hbody
      have hnone : s.node st.nn = none := by
        cases hg : s.node st.nn with
        | none => rfl
        | some y => exact absurd (h.inv.lt hg) (Nat.lt_irrefl _)
      refine ⟨st', _, _, some st.nn, ?_, h2, ⟨fun b y _ hy => ?_, fun b y hb hy => (upd_ne _ _ hb).trans hy⟩, upd_same ..,
        .inr ⟨_, rfl, hnone, ?_⟩, by simp [(lowEscapes_iff hbody).2 hset]⟩
      · refine (M.bind_ok hgk).trans ?_
        exact (M.bind_ok e).trans rfl
      · refine (Graph.set_ne _ _ ?_).trans hy
        rintro rfl
        exact absurd (h.inv.lt hy) (Nat.lt_irrefl _)
      · exact Graph.set_same ..
    · have e := hrun.2 (.inl hset)
      refine ⟨_, _, s, none, ?_, h1, .refl, hv, .inl rfl, by simp [Bool.eq_false_iff.2 fun h => hset ((lowEscapes_iff hbody).1 h)]⟩
      refine (M.bind_ok hgk).trans ?_
      exact (M.bind_ok e).trans rfl

/-- The value for a child: it is ready to be added, or cannot be added. -/
theorem copy_item {k nxt : Addr} {gk : GNode} {key : Bytes} (hC : Copies t) (h : WP st P s) (hn : s.hnd nxt = some ⟨some k, A⟩) (hk : s.node k = some gk)
    (hkey : KeyIs o gk.key key) (hu : Unf s.node k t) (hv : s.hnd v = some ⟨none, A⟩) (hnv : nxt ≠ v) :
    ∃ c st' P' s', (∀ F, c ≤ F → (do readmeKey o nxt v; getAndSet F nxt v : M Unit) st = .ok ((), st')) ∧ WP st' P' s' ∧
      Leaves (fun _ => False) (· = v) s s' ∧
      ((∃ u d g, cutItem o (key, t) = some (key, u) ∧ s'.hnd v = some ⟨some d, A⟩ ∧ s'.node d = some g ∧ (o = true → g.key = some key) ∧
        g.par = none ∧ Unf s'.node d u ∧ s.node d = none) ∨
       (cutItem o (key, t) = none ∧ s'.notItem v o)) := by
  obtain ⟨st2, P2, s2, x, e2, h2, hL2, hv2, hx2, hlow⟩ := copy_key h hn hk hkey hv
  have hk2 := hL2.node k _ id hk
  have hxn : ∀ b y, s.node b = some y → ¬ x = some b := fun b y hb e => by
    rcases hx2 with e' | ⟨d, e', hd, _⟩
    · rw [e'] at e; cases e
    · rw [e'] at e; cases e
      rw [hb] at hd; cases hd
  obtain ⟨c, st3, e3, hR⟩ := hC st2 P2 s2 nxt v A k x h2 (hL2.hnd nxt _ hnv hn) (hu.leaves hL2 fun _ _ => id) hv2 (fun d' e => by
    rcases hx2 with e' | ⟨d, e', hd, hd'⟩
    · rw [e'] at e; cases e
    · rw [e'] at e; cases e
      refine ⟨fun e => ?_, fun g hg => ?_⟩
      · rw [e, hk] at hd; cases hd
      · rw [hd'] at hg; cases hg; rfl)
  have erun : ∀ F, c ≤ F → (do readmeKey o nxt v; getAndSet F nxt v : M Unit) st = .ok ((), st3) := fun F hF => (M.bind_ok e2).trans (e3 F hF)
  rcases hR with ⟨u, P3, s3, d3, g3, hcut, C3⟩ | ⟨hcut, P3, h3⟩
  · have hL3 : Leaves (fun _ => False) (· = v) s s3 := hL2.trans C3.leaves (fun b y hb _ => ⟨id, hxn b y hb⟩) (fun _ _ _ h => ⟨h, h⟩)
    refine ⟨c, st3, P3, s3, erun, C3.wp, hL3, ?_⟩
    have hd3 : s.node d3 = none := by
      rcases C3.at_ with e | ⟨_, e⟩
      · cases hs : s.node d3 with
        | none => rfl
        | some y => exact absurd e (hxn d3 y hs)
      · cases hs : s.node d3 with
        | none => rfl
        | some y => rw [hL2.node d3 y id hs] at e; cases e
    cases o with
    | false => exact .inl ⟨u, d3, g3, by simp [cutItem, hcut], C3.hnd, C3.node, fun h => (nomatch h), C3.par, C3.doc, hd3⟩
    | true =>
      rcases hx2 with rfl | ⟨d, rfl, hd, hd'⟩
      · have hl : ¬ lowEscapes key = true := fun h => nomatch hlow.2 ⟨rfl, h⟩
        exact .inr ⟨by simp [cutItem, hl], .inr ⟨rfl, A, d3, g3, C3.hnd, C3.node, C3.key⟩⟩
      · have hl := (hlow.1 rfl).2
        refine .inl ⟨u, d3, g3, by simp [cutItem, hl, hcut], C3.hnd, C3.node, fun _ => ?_, C3.par, C3.doc, hd3⟩
        rw [C3.key]; simp [baseNode, hd']
  · refine ⟨c, st3, P3, s2, erun, h3, hL2, ?_⟩
    rcases hx2 with rfl | ⟨d, rfl, hd, hd'⟩
    · refine .inr ⟨?_, .inl ⟨A, hv2⟩⟩
      cases o with
      | false => simp [cutItem, hcut]
      | true =>
        have hl : ¬ lowEscapes key = true := fun h => nomatch hlow.2 ⟨rfl, h⟩
        simp [cutItem, hl]
    · obtain ⟨ho, hl⟩ := hlow.1 rfl
      subst ho
      exact .inl ⟨.null, d, _, by simp [cutItem, hl, hcut], hv2, hd', fun _ => rfl, rfl, .mk hd' (.scalar (gv := .null) rfl), hd⟩

theorem M.ret_inv {α β : Type} {m : M α} {f : α → β} {r : β} (h : (do return f (← m) : M β) st = .ok (r, st')) :
    ∃ y, m st = .ok (y, st') ∧ f y = r := by
  rw [M.bind_run] at h
  cases e : m st with
  | ok y => rw [e] at h; cases h; exact ⟨y.1, rfl, rfl⟩
  | ub y => rw [e] at h; cases h
  | timeout => rw [e] at h; cases h

/-- The add function of the loop. -/
theorem add_run {D : Type} {c : Nat} {fp : FP D} {b : Bool} (h : ∀ F, c ≤ F → exec fp F (.add o true w v) st = .ok (.bool b, st')) :
    readmeAdd o w v st = .ok (b, st') := by
  have h := h c (Nat.le_refl _)
  unfold readmeAdd
  cases o with
  | true =>
    obtain ⟨y, h1, h2⟩ := M.ret_inv (f := Ans.bool (D := D)) h
    cases h2; exact h1
  | false =>
    obtain ⟨y, h1, h2⟩ := M.ret_inv (f := Ans.bool (D := D)) h
    cases h2; exact h1

/-- The new value is added to the copy. -/
theorem copy_add {des k : Addr} {gd gk : GNode} {kids : List Addr} (h : WP st P s)
    (hd : s.hnd des = some ⟨some d, A⟩) (hgd : s.node d = some gd) (hval : gd.val = .con o kids) (hend : gd.endOK = true)
    (hdp : gd.par = none) (hv : s.hnd v = some ⟨some k, A⟩) (hk : s.node k = some gk) (hkp : gk.par = none)
    (hkey : o = true → gk.key.isSome = true) (hne : d ≠ k) :
    ∃ st' P' s', readmeAdd o des v st = .ok (true, st') ∧ WP st' P' s' ∧
      s'.node = (s.node.set k (gk.asItem o)).attach d k o kids ∧ s'.hnd = upd s.hnd v (some ⟨none, A⟩) := by
  have hacyc : ¬ Reach s.node k d := fun hr => hne (h.inv.forest.top hdp hr hgd).symm
  obtain ⟨c, st', r, s', P', e, hA, h'⟩ := step_addFast (fp := (⟨fun _ => [], fun _ => ()⟩ : FP Unit)) h ⟨A, gd, hd, hgd, hval⟩ hv (.root hk hkp) hk hkey
    ⟨⟨gd, hgd, hval, .inr hend⟩, hacyc⟩
  cases hA with
  | addFast h1 h2 h3 h4 h5 h6 =>
    obtain ⟨rfl, rfl⟩ := Store.isCon.det h1 ⟨A, gd, hd, hgd, hval⟩
    rw [hv] at h2; cases h2
    cases h3 with
    | root _ _ =>
      rw [hk] at h4; cases h4
      obtain ⟨⟨gf, e1, e2, _⟩, _⟩ := h6
      rw [hgd] at e1; cases e1
      rw [hval] at e2; cases e2
      exact ⟨st', P', _, add_run e, h', rfl, rfl⟩
    | child e1 e2 e3 _ =>
      obtain ⟨gk', e4, e5, _⟩ := (h.inv.forest _ _ _ _ e2 e3).2 k (by simp)
      rw [hk] at e4; cases e4
      rw [hkp] at e5; cases e5
  | addNo h1 =>
    exfalso
    rcases h1 with ⟨_, h1⟩ | ⟨B, e⟩ | ⟨ho, B, y, gy, e1, e2, e3⟩
    · exact h1 _ _ ⟨A, gd, hd, hgd, hval⟩
    · rw [hv] at e; cases e
    · rw [hv] at e1; cases e1
      rw [hk] at e2; cases e2
      have := hkey ho
      rw [e3] at this; cases this

theorem copy_refuse {des : Addr} (h : WP st P s) (hd : s.alive des) (hv : s.alive v) (hno : s.notItem v o) :
    ∃ st' P', readmeAdd o des v st = .ok (false, st') ∧ WP st' P' s := by
  obtain ⟨c, st', r, s', P', e, hA, h'⟩ := ZJ.goes (fp := (⟨fun _ => [], fun _ => ()⟩ : FP Unit)) (c := .add o true des v) h
    ⟨hd, hv, fun f ks y B gy _ e1 e2 e3 => by
      exfalso
      rcases hno with ⟨B', e⟩ | ⟨ho, B', y', gy', e1', e2', e3'⟩
      · rw [e1] at e; cases e
      · rw [e1] at e1'; cases e1'
        rw [e2] at e2'; cases e2'
        have := e3 ho
        rw [e3'] at this; cases this⟩
  cases hA with
  | addNo => exact ⟨st', P', add_run e, h'⟩
  | addFast h1 h2 h3 h4 h5 h6 =>
    exfalso
    rcases hno with ⟨B', e⟩ | ⟨ho, B', y', gy', e1', e2', e3'⟩
    · rw [h2] at e; cases e
    · rw [h2] at e1'; cases e1'
      obtain ⟨gx0, gx', q1, q2, _, q3, _⟩ := h3.self
      rw [e2'] at q1; cases q1
      rw [h4] at q2; cases q2
      have := h5 ho
      rw [q3, e3'] at this; cases this

theorem UnfI.cons_inv {k : Addr} {ks : List Addr} {xs0 : List (Bytes × Json)} (h : UnfI G o (k :: ks) xs0) :
    ∃ gk key t xs, xs0 = (key, t) :: xs ∧ G k = some gk ∧ KeyIs o gk.key key ∧ Unf G k t ∧ UnfI G o ks xs := by
  cases h with
  | cons h1 h2 h3 h4 => exact ⟨_, _, _, _, rfl, h1, h2, h3, h4⟩

/-- The loop over the children `rest` of the node `a`. -/
theorem kids_run {des : Addr} : ∀ {rest : List Addr} {xs : List (Bytes × Json)} {l kids : List Addr} {ys : List (Bytes × Json)} {st : St} {P : Addr → Prop}
    {s : Store} {a : Addr} {ga gd : GNode} {nxt : Option Addr}, WP st P s →
    (∀ m ∈ xs, Copies m.2) →
    s.node a = some ga → ga.val = .con o (l ++ rest) → UnfI s.node o rest xs →
    s.hnd des = some ⟨some d, A⟩ → s.node d = some gd → gd.val = .con o kids → gd.endOK = true → gd.par = none → d ≠ a →
    UnfI s.node o kids ys →
    (∀ k, rest.head? = some k → ∃ r, nxt = some r ∧ s.hnd r = some ⟨some k, A⟩) → (rest = [] → nxt = none) →
    ∃ c st' P' s' gd', (∀ F F', c ≤ F → c ≤ F' → readmeKids o (getAndSet F) des F' nxt st = .ok ((), st')) ∧ WP st' P' s' ∧
      s'.hnd des = some ⟨some d, A⟩ ∧ s'.node d = some gd' ∧ gd'.key = gd.key ∧ gd'.par = none ∧
      Unf s'.node d (mkCon o (ys ++ cutItems o xs)) ∧ Leaves (· = d) (· = des) s s'
  | [], xs, l, kids, ys, st, P, s, a, ga, gd, nxt, h, hC, ha, hav, hI, hd, hgd, hval, hend, hdp, hne, hy, hn, hn0 => by
    cases hI
    obtain rfl := hn0 rfl
    refine ⟨1, st, P, s, gd, fun F F' _ hF => ?_, h, hd, hgd, rfl, hdp, .mk hgd ?_, .refl⟩
    · obtain ⟨F', rfl⟩ : ∃ k, F' = k + 1 := ⟨F' - 1, by omega⟩
      rfl
    · rw [hval, cutItems, List.append_nil]; exact .con hy
  | k :: ks, xs0, l, kids, ys, st, P, s, a, ga, gd, nxt, h, hC, ha, hav, hI, hd, hgd, hval, hend, hdp, hne, hy, hn, _ => by
    obtain ⟨gk, key, t, xs, rfl, hk, hkey, hu, hr⟩ := hI.cons_inv
    obtain ⟨r, rfl, hnr⟩ := hn k rfl
    have hF := h.inv.forest
    have hAl := h.alloc hd
    have hCt : Copies t := hC (key, t) (by simp)
    /- a new value -/
    obtain ⟨hv0, _, h1⟩ := h.handle (x := none) hAl (fun _ e => (nomatch e))
    have hrv : r ≠ st.nv := fun e => by rw [e, hv0] at hnr; cases hnr
    have hdv : des ≠ st.nv := fun e => by rw [e, hv0] at hd; cases hd
    have hL1 : Leaves (fun _ => False) (· = st.nv) s (s.handle st.nv ⟨none, A⟩) :=
      ⟨fun _ _ _ h => h, fun b y hb hy => (upd_ne _ _ hb).trans hy⟩
    /- what is below other roots than the copy is unchanged -/
    have below : ∀ k, k ≠ d → ∀ c, Reach s.node k c → ¬ c = d := fun k hk c hr e => by
      subst e; exact hk (hF.top hdp hr hgd)
    have kid : ∀ {f gf ks' k}, s.node f = some gf → gf.val = .con o ks' → k ∈ ks' → k ≠ d := fun h1 h2 h3 e => by
      obtain ⟨gk', e1, e2, _⟩ := (hF _ _ _ _ h1 h2).2 _ h3
      rw [e, hgd] at e1; cases e1
      rw [hdp] at e2; cases e2
    /- its key and its value -/
    obtain ⟨c3, st3, P3, s3, e3, h3, hL3', hcase⟩ := copy_item (o := o) hCt h1 (hL1.hnd r _ hrv hnr) (hL1.node k _ id hk) hkey
      (hu.leaves hL1 fun _ _ => id) (upd_same ..) hrv
    have hL3 : Leaves (fun _ => False) (· = st.nv) s s3 := hL1.trans hL3' (fun _ _ _ _ => ⟨id, id⟩) (fun _ _ _ h => ⟨h, h⟩)
    have hgd3 := hL3.node d _ id hgd
    have hdes3 := hL3.hnd des _ hdv hd
    have erun : ∀ F F', c3 ≤ F → readmeKids o (getAndSet F) des (F' + 1) (some r) st = (do
        if !(← readmeAdd o des st.nv) then return ()
        readmeKids o (getAndSet F) des F' (← next_ r) : M Unit) st3 := fun F F' hF => by
      have e3 := e3 F hF
      simp only [readmeKids]
      refine (M.bind_ok (rdVal_run (h.val hd))).trans ?_
      refine (M.bind_ok (show newValue A st = _ from newVal_run hAl)).trans ?_
      rw [M.bind_run] at e3 ⊢
      cases e : readmeKey o r st.nv (st.addV A none) with
      | ok y =>
        rw [e] at e3
        exact M.bind_ok e3
      | ub y => rw [e] at e3; cases e3
      | timeout => rw [e] at e3; cases e3
    rcases hcase with ⟨u, d3, g3, hcut, hv3, hg3, hkey3, hpar3, hdoc3, hd3⟩ | ⟨hcut, hno⟩
    case inr =>
      /- it is not added -/
      have hvs : s3.alive st.nv := by
        rcases hno with ⟨B, e⟩ | ⟨_, B, _, _, e, _⟩
        · show (s3.hnd st.nv).isSome = true
          rw [e]; rfl
        · show (s3.hnd st.nv).isSome = true
          rw [e]; rfl
      obtain ⟨st4, P4, e4, h4⟩ := copy_refuse (o := o) h3 (show (s3.hnd des).isSome = true by rw [hdes3]; rfl) hvs hno
      refine ⟨c3 + 1, st4, P4, s3, gd, fun F F' hF hF' => ?_, h4, hdes3, hgd3, rfl, hdp, .mk hgd3 ?_, ?_⟩
      · obtain ⟨F', rfl⟩ : ∃ k, F' = k + 1 := ⟨F' - 1, by omega⟩
        rw [erun F F' (by omega)]
        exact (M.bind_ok e4).trans rfl
      · rw [cutItems, hcut, List.append_nil, hval]
        exact .con (hy.leaves hL3 fun _ _ _ _ => id)
      · exact ⟨fun b y _ hb => hL3.node b y id hb, fun b y _ hb => hL3.hnd b y (fun e => by rw [e, hv0] at hb; cases hb) hb⟩
    have hd3 : s.node d3 = none := hd3
    have hdd3 : d ≠ d3 := fun e => by rw [e, hd3] at hgd; cases hgd
    /- added to the copy -/
    obtain ⟨st4, P4, s4, e4, h4, hn4, hh4⟩ := copy_add h3 hdes3 hgd3 hval hend hdp hv3 hg3 hpar3
      (fun ho => by rw [hkey3 ho]; rfl) hdd3
    have other : ∀ b, b ≠ d → b ≠ d3 → s4.node b = s3.node b := fun b h1 h2 => by
      rw [hn4]; simp only [Graph.attach, h1, h2, if_false]; exact Graph.set_ne _ _ h2
    have hd4 : s4.node d = some { gd with val := .con o (kids ++ [d3]), endOK := true } := by
      rw [hn4]; exact attach_fa ((Graph.set_ne _ _ hdd3).trans hgd3) hdd3
    have hd34 : s4.node d3 = some { g3.asItem o with par := some d, prevOK := true } := by
      rw [hn4]; exact attach_self (Graph.set_same ..)
    have hL4 : Leaves (· = d) (fun b => b = st.nv) s s4 := by
      refine ⟨fun b y hb hy => ?_, fun b y hb hy => ?_⟩
      · rw [other b hb (fun e => by rw [e, hd3] at hy; cases hy)]; exact hL3.node b y id hy
      · rw [hh4, upd_ne _ _ hb]; exact hL3.hnd b y hb hy
    have hy4 : UnfI s4.node o kids ys := hy.leaves hL4 fun k hk => below k (kid hgd hval hk)
    have hr4 : UnfI s4.node o ks xs := hr.leaves hL4 fun k' hk' => below k' (kid ha hav (by simp [hk']))
    have hu3 : Unf s4.node d3 u := by
      obtain ⟨h1, h2⟩ := hdoc3
      rw [hg3] at h1; cases h1
      refine .mk hd34 ?_
      have hF3 := h3.inv.forest
      have nr : ∀ k' ∈ g3.val.kids, ∀ c, Reach s3.node k' c → ¬ (c = d ∨ c = d3) := by
        intro k' hk' c hr hc
        have hk'' : ∃ o' ks', g3.val = .con o' ks' ∧ k' ∈ ks' := by
          cases hv : g3.val with
          | con o' ks' => rw [hv] at hk'; exact ⟨o', ks', rfl, hk'⟩
          | _ => rw [hv] at hk'; simp [GVal.kids] at hk'
        obtain ⟨o', ks', hv, hm⟩ := hk''
        obtain ⟨gk', e1, e2, _⟩ := (hF3 _ _ _ _ hg3 hv).2 _ hm
        rcases hc with rfl | rfl
        · have := hF3.top hdp hr hgd3
          subst this
          rw [hgd3] at e1; cases e1
          rw [hdp] at e2; cases e2
        · have := hF3.top hpar3 hr hg3
          subst this
          rw [hg3] at e1; cases e1
          rw [hpar3] at e2; cases e2
      have same : ∀ b y, ¬ (b = d ∨ b = d3) → s3.node b = some y → s4.node b = some y := fun b y hb hy => by
        rw [other b (fun e => hb (.inl e)) (fun e => hb (.inr e))]; exact hy
      have : (g3.asItem o).val = g3.val := by cases o <;> rfl
      show UnfV s4.node (g3.asItem o).val u
      rw [this]
      refine h2.same (fun k' hk' => ?_) (fun k' gk' hk' hg => ⟨gk', same k' gk' (nr k' hk' k' .refl) hg, rfl⟩)
      obtain ⟨gk', hgk'⟩ := Option.isSome_iff_exists.1 (h2.kids_some k' hk')
      exact .leaves (h3.inv.fin k' gk' hgk') same (nr k' hk')
    have hkeyIs : KeyIs o (g3.asItem o).key key := by
      cases o with
      | true => exact hkey3 rfl
      | false => exact ⟨rfl, (show _ ∧ _ from hkey).2⟩
    have hyy : UnfI s4.node o (kids ++ [d3]) (ys ++ [(key, u)]) := hy4.app (.cons hd34 hkeyIs hu3 .nil)
    /- the next child -/
    have ha4 := hL4.node a ga (Ne.symm hne) ha
    have hnr4 := hL4.hnd r _ hrv hnr
    have enext := next_run h4.inv (h4.val hnr4) ha4 hav
    have hdes4 := hL4.hnd des _ hdv hd
    have tail : ∃ nxt5 st5 s5, next_ r st4 = .ok (nxt5, st5) ∧ WP st5 P4 s5 ∧ s5.node = s4.node ∧
        (∀ b y, s4.hnd b = some y → s5.hnd b = some y) ∧
        (∀ k, ks.head? = some k → ∃ r, nxt5 = some r ∧ s5.hnd r = some ⟨some k, A⟩) ∧ (ks = [] → nxt5 = none) := by
      cases ks with
      | nil => exact ⟨none, st4, s4, enext, h4, rfl, fun _ _ h => h, fun _ h => (nomatch h), fun _ => rfl⟩
      | cons k' ks' =>
        obtain ⟨gk', _, _, _, _, hgk', _⟩ := hr4.cons_inv
        obtain ⟨hv5, _, h5⟩ := h4.handle (x := some k') (h4.alloc hdes4) (fun b e => by cases e; rw [hgk']; rfl)
        refine ⟨some st4.nv, _, _, enext, h5, rfl, fun b y hb => ?_, fun k e => ?_, fun h => (nomatch h)⟩
        · exact (upd_ne _ _ (fun e => by rw [e, hv5] at hb; cases hb)).trans hb
        · cases e; exact ⟨_, rfl, upd_same ..⟩
    obtain ⟨nxt5, st5, s5, e5, h5, hn5, hh5, hnx, hnx0⟩ := tail
    obtain ⟨c6, st6, P6, s6, gd6, e6, h6, hd6, hgd6, hkey6, hpar6, hdoc6, hL6⟩ := kids_run (l := l ++ [k]) (xs := xs)
      (gd := { gd with val := .con o (kids ++ [d3]), endOK := true }) h5 (fun m hm => hC m (List.mem_cons_of_mem _ hm))
      (by rw [hn5]; exact ha4) (by rw [hav]; simp) (by rw [hn5]; exact hr4) (hh5 _ _ hdes4) (by rw [hn5]; exact hd4) rfl rfl hdp hne
      (by rw [hn5]; exact hyy) hnx hnx0
    refine ⟨max c3 c6 + 1, st6, P6, s6, gd6, fun F F' hF hF' => ?_, h6, hd6, hgd6, hkey6, hpar6, by rw [cutItems, hcut]; simpa using hdoc6, ?_⟩
    · obtain ⟨F', rfl⟩ : ∃ k, F' = k + 1 := ⟨F' - 1, by omega⟩
      rw [erun F F' (by omega)]
      refine (M.bind_ok e4).trans ?_
      exact (M.bind_ok e5).trans (e6 F F' (by omega) (by omega))
    · have hL5 : Leaves (· = d) (fun b => b = st.nv) s s5 :=
        ⟨fun b y hb hy => by rw [hn5]; exact hL4.node b y hb hy, fun b y hb hy => hh5 b y (hL4.hnd b y hb hy)⟩
      exact hL5.trans hL6 (fun _ _ _ h => ⟨h, h⟩) (fun b y hb h => ⟨fun e => (by rw [e, hv0] at hb; cases hb), h⟩)

/-! ### All documents -/

theorem held_mem {m : Bytes × Json} : ∀ {xs : List (Bytes × Json)}, m ∈ xs → m.2.held < Json.heldMembers xs
  | (k, t) :: xs, h => by
    rcases List.mem_cons.1 h with rfl | h
    · simp only [Json.heldMembers]; omega
    · have := held_mem h
      simp only [Json.heldMembers]; omega

theorem copies_con {xs : List (Bytes × Json)} (hT : ∀ m ∈ xs, Copies m.2) {st : St} {P : Addr → Prop} {s : Store}
    {src des A a : Addr} {ga : GNode} {kids : List Addr} {x : Option Addr} (h : WP st P s) (hs : s.hnd src = some ⟨some a, A⟩) (ha : s.node a = some ga)
    (hga : ga.val = .con o kids) (hI : UnfI s.node o kids xs) (hd : s.hnd des = some ⟨x, A⟩)
    (hx : ∀ d, x = some d → d ≠ a ∧ ∀ g, s.node d = some g → g.par = none) :
    ∃ c st', (∀ F, c ≤ F → getAndSet F src des st = .ok ((), st')) ∧
      ((∃ u P' s' d gd, (mkCon o xs).cut = some u ∧ CopiedTo st' P' s s' des x A d gd u) ∨ ((mkCon o xs).cut = none ∧ ∃ P', WP st' P' s)) := by
  have hset : ∃ st1, (if o then setObj des else setArray des) st = .ok ((), st1) ∧
      WP st1 P (s.put des A (rootOf st x) ((baseNode s.node x).put (.con o [])) false) := by
    cases o with
    | true =>
      obtain ⟨st1, e, hS⟩ := setObj_run h.inv (h.val hd) (h.has hd)
      exact ⟨st1, e, h.stored hd e (hS.setTo h.inv.ok) (Tri.setObj (Pre := True) des fun _ => .inl rfl) (fun _ => trivial) (fun _ h => h.elim)
        (fun _ h => (nomatch h)) (fun _ h => (nomatch h)) (fun h => (nomatch h))⟩
    | false =>
      obtain ⟨st1, e, hS⟩ := setArray_run h.inv (h.val hd) (h.has hd)
      exact ⟨st1, e, h.stored hd e (hS.setTo h.inv.ok) (Tri.setArray (Pre := True) des fun _ => .inl rfl) (fun _ => trivial) (fun _ h => h.elim)
        (fun _ h => (nomatch h)) (fun _ h => (nomatch h)) (fun h => (nomatch h))⟩
  obtain ⟨st1, e1, h1⟩ := hset
  have C1 := CopiedTo.put (t := mkCon o []) h hd (fun d e => (hx d e).2) h1 (.con .nil)
  have hty := getType_run h.inv (h.val hs) ha
  have hsd : src ≠ des := fun e => by
    rw [e, hd] at hs; cases hs
    exact (hx a rfl).1 rfl
  have hdxa : ∀ b y, s.node b = some y → ¬ x = some a := fun b y hb e => (hx a e).1 rfl
  have hs1 := C1.leaves.hnd src _ hsd hs
  have ha1 := C1.leaves.node a _ (fun e => (hx a e).1 rfl) ha
  have hda : rootOf st x ≠ a := by
    intro e
    rcases C1.at_ with e1 | ⟨_, e1⟩
    · exact (hx _ e1).1 e
    · rw [e, ha] at e1; cases e1
  have hI1 : UnfI (s.put des A (rootOf st x) ((baseNode s.node x).put (.con o [])) false).node o kids xs := by
    refine hI.leaves C1.leaves fun k hk c hr e => ?_
    obtain ⟨g, hg⟩ := Option.isSome_iff_exists.1 (h.has hd c e)
    have := h.inv.forest.top ((hx c e).2 g hg) hr hg
    subst this
    obtain ⟨gk, e1, e2, _⟩ := (h.inv.forest _ _ _ _ ha hga).2 _ hk
    rw [hg] at e1; cases e1
    rw [(hx _ e).2 g hg] at e2; cases e2
  have eb := begin_run h1.inv (h1.val hs1) ha1
  rw [hga] at eb
  have tail : ∃ nxt5 st5 s5, begin_ src st1 = .ok (nxt5, st5) ∧ WP st5 P s5 ∧ s5.node = (s.put des A (rootOf st x) ((baseNode s.node x).put (.con o [])) false).node ∧
      (∀ b y, (s.put des A (rootOf st x) ((baseNode s.node x).put (.con o [])) false).hnd b = some y → s5.hnd b = some y) ∧
      (∀ k, kids.head? = some k → ∃ r, nxt5 = some r ∧ s5.hnd r = some ⟨some k, A⟩) ∧ (kids = [] → nxt5 = none) := by
    cases kids with
    | nil => exact ⟨none, st1, _, eb, h1, rfl, fun _ _ h => h, fun _ h => (nomatch h), fun _ => rfl⟩
    | cons k' ks' =>
      obtain ⟨gk', _, _, _, _, hgk', _⟩ := hI1.cons_inv
      obtain ⟨hv5, _, h5⟩ := h1.handle (x := some k') (h1.alloc hs1) (fun b e => by cases e; rw [hgk']; rfl)
      refine ⟨some st1.nv, _, _, eb, h5, rfl, fun b y hb => ?_, fun k e => ?_, fun h => (nomatch h)⟩
      · exact (upd_ne _ _ (fun e => by rw [e, hv5] at hb; cases hb)).trans hb
      · cases e; exact ⟨_, rfl, upd_same ..⟩
  obtain ⟨nxt5, st5, s5, e5, h5, hn5, hh5, hnx, hnx0⟩ := tail
  have hval := hI.valid h.valid
  obtain ⟨c6, st6, P6, s6, gd6, e6, h6, hd6, hgd6, hkey6, hpar6, hdoc6, hL6⟩ := kids_run (l := []) (kids := []) (ys := []) h5
    hT
    (by rw [hn5]; exact ha1) hga (by rw [hn5]; exact hI1) (hh5 _ _ C1.hnd) (by rw [hn5]; exact C1.node) rfl rfl C1.par hda .nil hnx hnx0
  refine ⟨c6 + 1, st6, fun F hF => ?_, .inl ⟨_, P6, s6, rootOf st x, gd6, cut_con xs, ⟨h6, hd6, hgd6, hkey6, hpar6, hdoc6, ?_, C1.at_⟩⟩⟩
  · obtain ⟨F, rfl⟩ : ∃ k, F = k + 1 := ⟨F - 1, by omega⟩
    simp only [getAndSet]
    refine (M.bind_ok hty).trans ?_
    have e6 := e6 F F (by omega) (by omega)
    rw [hga]
    cases o with
    | true => exact (M.bind_ok e1).trans ((M.bind_ok e5).trans e6)
    | false => exact (M.bind_ok e1).trans ((M.bind_ok e5).trans e6)
  · have hL5 : Leaves (fun b => x = some b) (· = des) s s5 :=
      ⟨fun b y hb hy => by rw [hn5]; exact C1.leaves.node b y hb hy, fun b y hb hy => hh5 b y (C1.leaves.hnd b y hb hy)⟩
    refine hL5.trans hL6 (fun b y hb h => ⟨h, fun e => ?_⟩) (fun _ _ _ h => ⟨h, h⟩)
    rcases C1.at_ with e1 | ⟨_, e1⟩
    · exact h (by rw [e1, e])
    · rw [← e, hb] at e1; cases e1

theorem copies : ∀ (n : Nat) (t : Json), t.held < n → Copies t
  | 0, _, h => by omega
  | n + 1, .null, _ => copies_null
  | n + 1, .bool _, _ => copies_bool
  | n + 1, .num _, _ => copies_num
  | n + 1, .str _, _ => copies_str
  | n + 1, .arr ts, hn => by
    intro st P s src des A a x h hs hu hd hx
    obtain ⟨ha, hv⟩ := hu
    obtain ⟨ks, hga, hI⟩ := hv.arr_inv
    have he : mkCon false (ts.map fun x => ([], x)) = .arr ts := by simp [mkCon, Function.comp_def]
    have hh := hI.held
    rw [he] at hh
    rw [← he]
    exact copies_con (fun m hm => copies n _ (by have := held_mem hm; omega)) h hs ha hga hI hd hx
  | n + 1, .obj ms, hn => by
    intro st P s src des A a x h hs hu hd hx
    obtain ⟨ha, hv⟩ := hu
    obtain ⟨ks, hga, hI⟩ := hv.obj_inv
    have he : mkCon true ms = .obj ms := rfl
    have hh := hI.held
    rw [← he]
    exact copies_con (fun m hm => copies n _ (by have := held_mem hm; rw [he] at hh; omega)) h hs ha hga hI hd hx

mutual
/-- A document the texts of which have no high escapes is copied as it is. -/
theorem Json.cut_eq : ∀ {t : Json}, t.Texts (lowEscapes · = true) → t.cut = some t
  | .null, _ | .bool _, _ | .num _, _ => rfl
  | .str raw, h => if_pos h
  | .arr ts, h => by rw [Json.cut, Json.cutElems_eq h]
  | .obj ms, h => by rw [Json.cut, Json.cutMembers_eq h]
theorem Json.cutElems_eq : ∀ {ts : List Json}, Json.TextsElems (lowEscapes · = true) ts → Json.cutElems ts = ts
  | [], _ => rfl
  | t :: ts, h => by rw [Json.cutElems, Json.cut_eq h.1, Json.cutElems_eq h.2]
theorem Json.cutMembers_eq : ∀ {ms : List (Bytes × Json)}, Json.TextsMembers (lowEscapes · = true) ms → Json.cutMembers ms = ms
  | [], _ => rfl
  | (k, t) :: ms, h => by rw [Json.cutMembers, if_pos h.1, Json.cut_eq h.2.1, Json.cutMembers_eq h.2.2]; rfl
end

mutual
theorem Json.cut_only : ∀ {t : Json}, t.cut = some t → t.Texts (lowEscapes · = true)
  | .null, _ | .bool _, _ | .num _, _ => trivial
  | .str raw, h => by
    rw [Json.cut] at h
    split at h
    · assumption
    · cases h
  | .arr ts, h => by rw [Json.cut] at h; exact Json.cutElems_only (by simpa using h)
  | .obj ms, h => by rw [Json.cut] at h; exact Json.cutMembers_only (by simpa using h)
theorem Json.cutElems_only : ∀ {ts : List Json}, Json.cutElems ts = ts → Json.TextsElems (lowEscapes · = true) ts
  | [], _ => trivial
  | t :: ts, h => by
    rw [Json.cutElems] at h
    split at h
    · cases h
    · rename_i u hu
      injection h with h1 h2
      subst h1
      exact ⟨Json.cut_only hu, Json.cutElems_only h2⟩
theorem Json.cutMembers_only : ∀ {ms : List (Bytes × Json)}, Json.cutMembers ms = ms → Json.TextsMembers (lowEscapes · = true) ms
  | [], _ => trivial
  | (k, t) :: ms, h => by
    rw [Json.cutMembers] at h
    split at h
    · rename_i hk
      injection h with h1 h2
      injection h1 with _ h1
      refine ⟨hk, ?_, Json.cutMembers_only h2⟩
      cases hc : t.cut with
      | some u => rw [hc] at h1; cases h1; exact Json.cut_only hc
      | none =>
        rw [hc] at h1
        cases h1; cases hc
    · cases h
end

theorem M.bind_inv' {α β : Type} {m : M α} {f : α → M β} {r : β} (h : (m >>= f) st = .ok (r, st')) :
    ∃ a st1, m st = .ok (a, st1) ∧ f a st1 = .ok (r, st') := by
  rw [M.bind_run] at h
  cases hm : m st with
  | ok x => rw [hm] at h; exact ⟨x.1, x.2, rfl, h⟩
  | ub u => rw [hm] at h; cases h
  | timeout => rw [hm] at h; cases h

theorem print_ans {D : Type} {fp : FP D} {n : Option GNode} {r : Ans D} (h : GetFn.Answers fp G .print x n r) :
    (x = none ∧ r = .bytes (some [])) ∨ ∃ a t, x = some a ∧ Unf G a t ∧ r = .bytes (some t.print) := by
  cases h with
  | print h => exact .inr ⟨_, _, rfl, h, rfl⟩
  | printNone => exact .inl ⟨rfl, rfl⟩
  | str h => rcases h with h | h <;> cases h
  | num h => rcases h with h | h <;> cases h
  | key h => rcases h with h | h <;> cases h
  | _ => simp_all

/-! ### The property -/

/-- C56, `GetAndSet` from any state in which the two values are in one allocator and the second is
empty or the root of a document of its own: it makes of the document `t` the document `t.cut`, and
changes neither the source nor any other value. (A second document that is given is replaced.
When no copy is made the second value is left as it is.) -/
theorem C56_getAndSet {src des : Addr} (h : WP st P s) (hs : s.hnd src = some ⟨some a, A⟩) (hu : Unf s.node a t) (hd : s.hnd des = some ⟨x, A⟩)
    (hx : ∀ d, x = some d → d ≠ a ∧ ∀ g, s.node d = some g → g.par = none) :
    ∃ c st' P' s', (∀ F, c ≤ F → getAndSet F src des st = .ok ((), st')) ∧ WP st' P' s' ∧
      Leaves (fun b => x = some b) (· = des) s s' ∧ Unf s'.node a t ∧
      (∀ u, t.cut = some u → ∃ d, s'.hnd des = some ⟨some d, A⟩ ∧ Unf s'.node d u) ∧ (t.cut = none → s' = s) := by
  obtain ⟨c, st', e, ⟨u, P', s', d, gd, hc, C⟩ | ⟨hc, P', h'⟩⟩ := copies _ t (Nat.lt_succ_self _) st P s src des A a x h hs hu hd hx
  · refine ⟨c, st', P', s', e, C.wp, C.leaves, hu.leaves C.leaves fun b hr e => ?_, fun u' e => ?_, fun e => ?_⟩
    · obtain ⟨g, hg⟩ := Option.isSome_iff_exists.1 (h.has hd b e)
      exact (hx b e).1 (h.inv.forest.top ((hx b e).2 g hg) hr hg).symm
    · rw [hc] at e; cases e
      exact ⟨d, C.hnd, C.doc⟩
    · rw [hc] at e; cases e
  · refine ⟨c, st', P', s, e, h', .refl, hu, fun u e => ?_, fun _ => rfl⟩
    rw [hc] at e; cases e

/-- C56 as the program is: for every JSON text it prints the document `cut` says. -/
theorem C56_prints {b : Bytes} (hb : JText t b) (slack : Nat → Nat) :
    ∃ c, ∀ F, c ≤ F → (readmeMain F b (St.init slack cfg)).out = .ok (some ((t.cut.map Json.print).getD [])) := by
  let fp : FP Unit := ⟨fun _ => [], fun _ => ()⟩
  have h0 : WP (St.init slack cfg) (fun _ => False) (Store.init false) := WP.init nofun
  obtain ⟨c1, st1, r1, s1, P1, e1, hA1, h1⟩ := step_newAlloc (fp := fp) h0
  obtain ⟨A, q1, rfl⟩ := M.ret_inv (f := Ans.alloc (D := Unit)) (e1 c1 (Nat.le_refl _))
  have hl1 : s1.live A = true := by cases hA1; exact upd_same ..
  have hA : st1.allocs A = true := by rw [← h1.live]; exact hl1
  obtain ⟨hv1, _, h2⟩ := h1.handle (x := none) hA (fun _ e => (nomatch e))
  obtain ⟨hv2, _, h3⟩ := h2.handle (A := A) (x := none) hA (fun _ e => (nomatch e))
  have hne : st1.nv ≠ (st1.addV A none).nv := by simp
  generalize hs3 : ((s1.handle st1.nv ⟨none, A⟩).handle (st1.addV A none).nv ⟨none, A⟩) = s3 at h3
  have hsrc : s3.hnd st1.nv = some ⟨none, A⟩ := by rw [← hs3]; exact (upd_ne _ _ hne).trans (upd_same ..)
  have hdes : s3.hnd (st1.addV A none).nv = some ⟨none, A⟩ := by rw [← hs3]; exact upd_same ..
  obtain ⟨c4, st4, r4, s4, P4, e4, hA4, h4⟩ := step_parse (fp := fp) (f := .parseFast) (b := b) h3
    ⟨show (s3.hnd st1.nv).isSome = true by rw [hsrc]; rfl, .inr hb.no_nul, .inr ⟨t, hb⟩⟩
  obtain ⟨y4, q4, rfl⟩ := M.ret_inv (f := Ans.bool (D := Unit)) (e4 c4 (Nat.le_refl _))
  /- the parsed document -/
  have hparsed : y4 = true ∧ ∃ a, s4.hnd st1.nv = some ⟨some a, A⟩ ∧ Unf s4.node a t ∧ s4.hnd (st1.addV A none).nv = some ⟨none, A⟩ := by
    cases hA4 with
    | parseNo h => exact absurd ⟨t, hb⟩ h
    | @parse _ _ _ B a gn gv g t' ht hT hp _ =>
      obtain rfl := JText_unique hb ht
      have hB : B = A := by cases hT with
        | old e _ => rw [hsrc] at e; cases e
        | new e _ _ => rw [hsrc] at e; cases e; rfl
      subst hB
      refine ⟨rfl, a, upd_same .., .mk (Graph.set_same ..) (hp.doc.mono fun c y hc => ?_), (upd_ne _ _ hne.symm).trans hdes⟩
      have := (hp.fresh c y hc).2
      show (Graph.set _ _ _) c = _
      rw [Graph.set_ne _ _ this]
      show (g c).or _ = _
      rw [hc]; rfl
  obtain ⟨rfl, a, hsrc4, hu4, hdes4⟩ := hparsed
  /- the copy -/
  obtain ⟨c5, st5, P5, s5, e5, h5, hL5, _, hsome, hnone⟩ := C56_getAndSet h4 hsrc4 hu4 hdes4 (fun d e => (nomatch e))
  have hdes5 : ∃ x, s5.hnd (st1.addV A none).nv = some ⟨x, A⟩ := by
    cases hc : t.cut with
    | none => rw [hnone hc]; exact ⟨_, hdes4⟩
    | some u => obtain ⟨d, h1, _⟩ := hsome u hc; exact ⟨_, h1⟩
  obtain ⟨x5, hx5⟩ := hdes5
  obtain ⟨c6, st6, r6, s6, P6, e6, hA6, h6⟩ := step_get (fp := fp) (f := .print) (v := (st1.addV A none).nv) h5
    ⟨show (s5.hnd _).isSome = true by rw [hx5]; rfl, fun _ _ _ _ _ _ _ => trivial⟩
  have hr6 : r6 = .bytes (some ((t.cut.map Json.print).getD [])) ∧ s6 = s5 := by
    cases hA6 with
    | get hv ha =>
      refine ⟨?_, rfl⟩
      cases hc : t.cut with
      | none =>
        rw [hnone hc, hdes4] at hv; cases hv
        rcases print_ans ha with ⟨_, e⟩ | ⟨_, _, e, _⟩
        · exact e
        · cases e
      | some u =>
        obtain ⟨d, h1, h2⟩ := hsome u hc
        rw [h1] at hv; cases hv
        rcases print_ans ha with ⟨e, _⟩ | ⟨_, _, e, h, e'⟩
        · cases e
        · cases e; rw [e', h.det h2]; rfl
  obtain ⟨rfl, rfl⟩ := hr6
  have hlive : s6.live A = true := by rw [h6.live]; exact h6.alloc hx5
  obtain ⟨c7, st7, r7, s7, P7, e7, _, _⟩ := step_release (fp := fp) h6 hlive
  refine ⟨max (max c4 c5) (max c6 c7), fun F hF => ?_⟩
  have e5 := e5 F (by omega)
  obtain ⟨p6, st6', q6', q6⟩ := M.bind_inv' (m := stringify F (st1.addV A none).nv) (e6 F (by omega))
  obtain ⟨y6, q6, hy6⟩ := M.ret_inv (f := Ans.bytes (D := Unit)) q6
  cases hy6
  obtain ⟨_, q7, _⟩ := M.ret_inv (f := fun _ : Unit => Ans.unit (D := Unit)) (e7 F (by omega))
  have e : readmeMain F b (St.init slack cfg) = .ok (some ((t.cut.map Json.print).getD []), st7) := by
    unfold readmeMain
    refine (M.bind_ok q1).trans ?_
    refine (M.bind_ok (show newValue A st1 = _ from newVal_run hA)).trans ?_
    refine (M.bind_ok (show newValue A (st1.addV A none) = _ from newVal_run hA)).trans ?_
    refine (M.bind_ok q4).trans ?_
    refine (M.bind_ok e5).trans ?_
    refine (M.bind_ok q6').trans ?_
    refine (M.bind_ok q6).trans ?_
    exact (M.bind_ok q7).trans rfl
  rw [e]; rfl

/-- C56 for the documents without escapes of `E000` or more: the program prints the document it
parsed. -/
theorem C56_partial {b : Bytes} (hb : JText t b) (ht : t.Texts (lowEscapes · = true)) (slack : Nat → Nat) :
    ∃ c, ∀ F, c ≤ F → (readmeMain F b (St.init slack cfg)).out = .ok (some t.print) := by
  have := C56_prints (cfg := cfg) hb slack
  rw [Json.cut_eq ht] at this
  exact this

mutual
theorem Json.cut_valid : ∀ {t u : Json}, t.Valid → t.cut = some u → u.Valid
  | .null, _, h, e | .bool _, _, h, e | .num _, _, h, e => by cases e; exact h
  | .str raw, _, h, e => by
    rw [Json.cut] at e
    split at e
    · cases e; exact h
    · cases e
  | .arr ts, _, h, e => by rw [Json.cut] at e; cases e; exact Json.cutElems_valid h
  | .obj ms, _, h, e => by rw [Json.cut] at e; cases e; exact Json.cutMembers_valid h
theorem Json.cutElems_valid : ∀ {ts : List Json}, Json.ValidElems ts → Json.ValidElems (Json.cutElems ts)
  | [], _ => trivial
  | t :: ts, h => by
    rw [Json.cutElems]
    split
    · trivial
    · rename_i u hu
      exact ⟨Json.cut_valid h.1 hu, Json.cutElems_valid h.2⟩
theorem Json.cutMembers_valid : ∀ {ms : List (Bytes × Json)}, Json.ValidMembers ms → Json.ValidMembers (Json.cutMembers ms)
  | [], _ => trivial
  | (k, t) :: ms, h => by
    rw [Json.cutMembers]
    split
    · refine ⟨h.1, ?_, Json.cutMembers_valid h.2.2⟩
      cases hc : t.cut with
      | none => trivial
      | some u => exact Json.cut_valid h.2.1 hc
    · trivial
end

theorem print_ne_nil {t : Json} (h : t.Valid) : t.print ≠ [] := by
  cases t with
  | null => exact nofun
  | bool b => cases b <;> exact nofun
  | num raw =>
    intro e
    obtain ⟨c, r, e', _⟩ := IsNum.ne_nil (b := raw) h
    rw [show raw = [] from e] at e'
    cases e'
  | str raw => exact nofun
  | arr ts => exact nofun
  | obj ms => exact nofun

/-- C56: exactly the documents without escapes of `E000` or more are copied faithfully. -/
theorem C56_iff {b : Bytes} (hb : JText t b) (slack : Nat → Nat) :
    (∃ c, ∀ F, c ≤ F → (readmeMain F b (St.init slack cfg)).out = .ok (some t.print)) ↔ t.Texts (lowEscapes · = true) := by
  refine ⟨fun ⟨c, h⟩ => ?_, fun h => C56_partial hb h slack⟩
  obtain ⟨c', h'⟩ := C56_prints (cfg := cfg) hb slack
  have e := (h (max c c') (by omega)).symm.trans (h' (max c c') (by omega))
  have hv : t.Valid := (valid_iff_text t).2 (print_text hb.valid)
  injection e with e
  injection e with e
  cases hc : t.cut with
  | none =>
    rw [hc] at e
    have e : t.print = [] := e
    exact absurd e (print_ne_nil hv)
  | some u =>
    rw [hc] at e
    have e : t.print = u.print := e
    have := print_text (Json.cut_valid hv hc)
    rw [← e] at this
    rw [JText_unique this (print_text hv)] at hc
    exact Json.cut_only hc

/-- C56 is false as stated: a string with the escape of `U+E000`, a valid JSON text, is lost with
all that follows. -/
theorem C56_false : ¬ ∀ (t : Json) (b : Bytes) (slack : Nat → Nat), JText t b →
    ∃ c, ∀ F, c ≤ F → (readmeMain F b (St.init slack cfg)).out = .ok (some t.print) := by
  intro h
  have hv : (Json.arr [.str b!"a", .str b!"\\uE000", .str b!"b"]).Valid := by
    refine ⟨.plain (by decide) (by decide) (by decide) .nil, ?_, .plain (by decide) (by decide) (by decide) .nil, trivial⟩
    exact .uni (n := 0xE000) ⟨14, 0, 0, 0, by decide, by decide, by decide, by decide, by decide⟩ (by unfold IsHighSurrogate; omega)
      (by unfold IsLowSurrogate; omega) .nil
  have := (C56_iff (print_text hv) (fun _ => 0)).1 (h _ _ _ (print_text hv))
  exact absurd (show lowEscapes b!"\\uE000" = true from this.2.1) (by show ¬ lowEscapes _ = true; decide)

/-- A text that is not JSON is rejected by the program, if three more bytes can be read behind it
(C05). -/
theorem C56_rejects {b : Bytes} (hb : ¬ ∃ t, JText t b) (h0 : (0 : Byte) ∉ b) {slack : Nat → Nat} (hs : ∀ b, 3 ≤ slack b) (F : Nat) :
    (readmeMain F b (St.init slack cfg)).out = .ok none := by
  let fp : FP Unit := ⟨fun _ => [], fun _ => ()⟩
  have hw : WP (St.init slack cfg) (fun _ => False) (Store.init true) := WP.init fun _ => hs
  obtain ⟨c1, st1, r1, s1, P1, e1, hA1, h1⟩ := step_newAlloc (fp := fp) hw
  obtain ⟨A, q1, rfl⟩ := M.ret_inv (f := Ans.alloc (D := Unit)) (e1 c1 (Nat.le_refl _))
  have hl1 : s1.live A = true ∧ s1.pad = true := by cases hA1; exact ⟨upd_same .., rfl⟩
  have hA : st1.allocs A = true := by rw [← h1.live]; exact hl1.1
  obtain ⟨hv1, _, h2⟩ := h1.handle (x := none) hA (fun _ e => (nomatch e))
  obtain ⟨hv2, _, h3⟩ := h2.handle (A := A) (x := none) hA (fun _ e => (nomatch e))
  have hne : st1.nv ≠ (st1.addV A none).nv := by simp
  have hsrc : ((s1.handle st1.nv ⟨none, A⟩).handle (st1.addV A none).nv ⟨none, A⟩).hnd st1.nv = some ⟨none, A⟩ :=
    (upd_ne _ _ hne).trans (upd_same ..)
  obtain ⟨c4, st4, r4, s4, P4, e4, hA4, h4⟩ := step_parse (fp := fp) (f := .parseFast) (b := b) h3
    ⟨show (Store.hnd _ st1.nv).isSome = true by rw [hsrc]; rfl, .inr h0, .inl hl1.2⟩
  obtain ⟨y4, q4, rfl⟩ := M.ret_inv (f := Ans.bool (D := Unit)) (e4 c4 (Nat.le_refl _))
  cases hA4 with
  | parse ht => exact absurd ⟨_, ht⟩ hb
  | parseNo =>
    have e : readmeMain F b (St.init slack cfg) = .ok (none, st4) := by
      unfold readmeMain
      refine (M.bind_ok q1).trans ?_
      refine (M.bind_ok (show newValue A st1 = _ from newVal_run hA)).trans ?_
      refine (M.bind_ok (show newValue A (st1.addV A none) = _ from newVal_run hA)).trans ?_
      exact (M.bind_ok q4).trans rfl
    rw [e]; rfl

/-- The copy is not a document of its own: made in another allocator it still points to texts in
the allocator of the source, and using it after that one is released is undefined. -/
theorem C56_allocators_false : (readmeMain2 99 b!"[true,\"a\"]" (St.init fun _ => 0)).out = .ub .wild := by decide +kernel

/-- The document of the README. -/
example : (readmeMain 99 b!"[{\"key\":true},false,{\"key1\":true},[null,false,[],true],[\"\",123,\"str\"],null]" (St.init fun _ => 0)).out =
    .ok (some b!"[{\"key\":true},false,{\"key1\":true},[null,false,[],true],[\"\",123,\"str\"],null]") := by decide +kernel

/-- It meets the hypothesis of `C56_partial`; so does a document with other escapes. -/
example : (Json.arr [.obj [(b!"k\\u00e9", .bool true)], .str b!"\\uD83D\\uDE00 \\\\uE000", .num b!"1.50"]).Texts (lowEscapes · = true) :=
  ⟨⟨by decide, trivial, trivial⟩, (by decide : lowEscapes _ = true), trivial, trivial⟩

/-- The elements from the first string with a high escape on are lost. -/
example : (readmeMain 99 b!"[\"a\",\"\\uE000\",\"b\"]" (St.init fun _ => 0)).out = .ok (some b!"[\"a\"]") := by decide +kernel

/-- In an object such a string becomes `null`, -/
example : (readmeMain 99 b!"{\"a\":1,\"k\":\"\\uE000\",\"b\":3}" (St.init fun _ => 0)).out =
    .ok (some b!"{\"a\":1,\"k\":null,\"b\":3}") := by decide +kernel

/-- and the members from the first such key on are lost. -/
example : (readmeMain 99 b!"{\"a\":1,\"\\uE000\":2,\"b\":3}" (St.init fun _ => 0)).out = .ok (some b!"{\"a\":1}") := by decide +kernel

/-- Such a string alone gives no document. -/
example : (readmeMain 99 b!"\"\\uFFFD\"" (St.init fun _ => 0)).out = .ok (some []) := by decide +kernel

/-- A text that is not JSON. -/
example : (readmeMain 99 b!"[1,]" (St.init fun _ => 3)).out = .ok none := by decide +kernel

end ZJ
