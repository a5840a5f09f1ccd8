import Verif.HistParse

/-
C34: histories of API calls.

`Prog` is a client (`Machine`): it makes a call and goes on depending on the answer. `exec`
(`Hist`) runs one call of the model of the code. The theorem is that every client that only
makes calls allowed by `Legit` runs without undefined behaviour, comes to its end, and gets
answers that the abstract store of documents may give.
-/

set_option linter.unusedSimpArgs false
set_option linter.unusedVariables false

namespace ZJ

variable {D : Type} {fp : FP D} {st st' : St} {P : Addr → Prop} {s s' : Store}

/-- The client runs on the model of the code. The result is the list of answers. -/
def Prog.run (fp : FP D) (F : Nat) : Prog D → M (List (Ans D))
  | .done => return []
  | .call c k => do
    let r ← exec fp F c
    let rs ← (k r).run fp F
    return r :: rs

/-- One allowed call. -/
theorem goes (h : WP st P s) {c : Call D} (hL : Legit fp s c) : Goes fp c st s := by
  cases c with
  | newAlloc => exact step_newAlloc h
  | release A => exact step_release h hL
  | newValue A => exact step_newValue h hL
  | parse f v b => exact step_parse h hL
  | text f v b => exact step_text h hL
  | null v => exact step_null h hL
  | bool v b => exact step_bool h hL
  | array v => exact step_array h hL
  | object v => exact step_object h hL
  | int f v n => exact step_int h hL
  | double v d => exact step_double h hL
  | key f v b => exact step_key h hL
  | get f v => exact step_get h hL
  | nav f v => exact step_nav h hL
  | copy v => exact step_copy h hL
  | move v => exact step_move h hL
  | add o fast v w => exact step_add h hL
  | delAt v i => exact step_delAt h hL
  | delKey v k => exact step_delKey h hL
  | set fast v w =>
    cases fast with
    | true => exact step_setFast h hL
    | false => exact step_set h hL

/-- A client that starts in the middle. -/
theorem Prog.goes {p : Prog D} : ∀ {st P s}, WP st P s → p.Safe fp s →
    ∃ c0 rs st' s' P', (∀ F, c0 ≤ F → p.run fp F st = .ok (rs, st')) ∧ p.Gives fp s rs s' ∧ WP st' P' s' := by
  induction p with
  | done => exact fun {st P s} h _ => ⟨0, [], st, s, P, fun _ _ => rfl, .done, h⟩
  | call c k ih =>
    intro st P s h hs
    obtain ⟨c1, st1, r, s1, P1, e1, hA, h1⟩ := ZJ.goes h hs.1
    obtain ⟨c2, rs, st2, s2, P2, e2, hG, h2⟩ := ih r h1 (hs.2 r s1 hA h1.wf)
    refine ⟨max c1 c2, r :: rs, st2, s2, P2, fun F hF => ?_, .call hA h1.wf hG, h2⟩
    unfold Prog.run
    mstep e1 F (by omega)
    mstep e2 F (by omega)
    rfl

/-- The memory of a program that has not called anything represents the empty store. -/
theorem WP.init {slack : Nat → Nat} {pad : Bool} (hp : pad = true → ∀ b, 3 ≤ slack b) :
    WP (St.init slack cfg) (fun _ => False) (Store.init pad) where
  inv := ⟨⟨fun _ _ => rfl, fun _ _ => rfl, fun _ _ => rfl, fun _ _ h => (nomatch h), fun _ _ h => (nomatch h), fun _ h => (nomatch h)⟩,
    fun _ h => h.elim, fun _ _ h => (nomatch h), fun _ _ h => (nomatch h)⟩
  hnd _ _ h := (nomatch h)
  live := rfl
  fresh _ _ := rfl
  pad := hp
  valid := ⟨fun _ _ _ h => (nomatch h), fun _ _ _ h => (nomatch h), fun _ _ _ h => (nomatch h)⟩
  tail _ _ _ _ h := (nomatch h)
  dep _ _ h := (nomatch h)
  scr _ h := (nomatch h)
  scr0 _ := rfl
  seen := ⟨fun _ h => h.elim, fun _ h => h.elim, fun _ h => h.elim⟩

/-- The handle `v` of the store belongs to the document `t`. -/
def Store.Doc (s : Store) (v : Addr) (t : Json) : Prop := ∃ a A, s.hnd v = some ⟨some a, A⟩ ∧ Unf s.node a t

/-- C34 (all of it except for the calls that run into the defects listed in `Legit`): every
client, whatever it does with the answers, that only uses handles that may still be used and
only makes calls allowed by `Legit`, runs to its end without undefined behaviour. Its answers
are answers the abstract store gives to the same calls, and in the end every usable handle
shows in the memory the document it has in the abstract store, which is a valid document. -/
theorem C34_history_partial {slack : Nat → Nat} {pad : Bool} (hp : pad = true → ∀ b, 3 ≤ slack b) (p : Prog D)
    (hs : p.Safe fp (Store.init pad)) :
    ∃ c rs st' s', (∀ F, c ≤ F → p.run fp F (St.init slack cfg) = .ok (rs, st')) ∧ p.Gives fp (Store.init pad) rs s' ∧
      (∀ v y, s'.hnd v = some y → st'.vals v = some y) ∧
      ∀ v t, s'.Doc v t → Shows st' v t ∧ t.Valid := by
  obtain ⟨c, rs, st', s', P', e, hG, h⟩ := p.goes (WP.init hp) hs
  refine ⟨c, rs, st', s', e, hG, fun v y hv => (h.hnd v y hv).1, fun v t ⟨a, A, hv, hu⟩ => ⟨h.inv.shows (h.hnd v _ hv).1 hu, hu.valid h.valid⟩⟩

/-! ### The abstract store gives one answer -/

/-- The same answer up to names of new allocators and handles: new handles belong to the same
documents. -/
inductive SameAns (s1 s2 : Store) : Ans D → Ans D → Prop
  | same {r} : SameAns s1 s2 r r
  | alloc {A B} : SameAns s1 s2 (.alloc A) (.alloc B)
  | handle {v w} : (∀ t, s1.Doc v t ↔ s2.Doc w t) → SameAns s1 s2 (.handle (some v)) (.handle (some w))

theorem Answers.unique {f : GetFn} {G : Graph} {x : Option Addr} {o : Option GNode} {r r' : Ans D}
    (h : f.Answers fp G x o r) (h' : f.Answers fp G x o r') : r = r' := by
  cases h with
  | type => cases h' <;> simp_all
  | size => cases h' <;> simp_all
  | null => cases h' <;> simp_all
  | bool => cases h' <;> simp_all
  | str hf => rcases hf with rfl | rfl <;> cases h' <;> first | rfl | simp_all
  | num hf => rcases hf with rfl | rfl <;> cases h' <;> first | rfl | simp_all
  | unStr hv hd =>
    cases h' with
    | unStr hv' hd' => rw [hv] at hv'; cases hv'; rw [hd.det hd']
    | unStrNone hn => exact absurd (by rw [hv]; rfl) (hn _ rfl)
    | str hf => simp at hf
    | num hf => simp at hf
    | int hf => simp at hf
    | intNone hf => simp at hf
    | key hf => simp at hf
  | unStrNone hn =>
    cases h' with
    | unStr hv hd => exact absurd (by rw [hv]; rfl) (hn _ rfl)
    | unStrNone => rfl
    | str hf => simp at hf
    | num hf => simp at hf
    | int hf => simp at hf
    | intNone hf => simp at hf
    | key hf => simp at hf
  | int hf hv hi =>
    rcases hf with rfl | rfl | rfl <;> cases h' with
    | int hf' hv' hi' => rw [hv] at hv'; cases hv'; rw [hi.unique hi']
    | intNone _ hn => exact absurd (by rw [hv]; rfl) (hn _ rfl)
    | str hf => simp at hf
    | num hf => simp at hf
    | key hf => simp at hf
  | intNone hf hn =>
    rcases hf with rfl | rfl | rfl <;> cases h' with
    | int hf' hv' hi' => exact absurd (by rw [hv']; rfl) (hn _ rfl)
    | intNone => rfl
    | str hf => simp at hf
    | num hf => simp at hf
    | key hf => simp at hf
  | double hv =>
    cases h' with
    | double hv' => rw [hv] at hv'; cases hv'; rfl
    | doubleNone hn => exact absurd (by rw [hv]; rfl) (hn _ rfl)
    | str hf => simp at hf
    | num hf => simp at hf
    | int hf => simp at hf
    | intNone hf => simp at hf
    | key hf => simp at hf
  | doubleNone hn =>
    cases h' with
    | double hv => exact absurd (by rw [hv]; rfl) (hn _ rfl)
    | doubleNone => rfl
    | str hf => simp at hf
    | num hf => simp at hf
    | int hf => simp at hf
    | intNone hf => simp at hf
    | key hf => simp at hf
  | key hf => rcases hf with rfl | rfl <;> cases h' <;> first | rfl | simp_all
  | unKey hk hd =>
    cases h' with
    | unKey hk' hd' => rw [hk] at hk'; cases hk'; rw [hd.det hd']
    | unKeyNone hn => simp [hk] at hn
    | str hf => simp at hf
    | num hf => simp at hf
    | int hf => simp at hf
    | intNone hf => simp at hf
    | key hf => simp at hf
  | unKeyNone hn =>
    cases h' with
    | unKey hk hd => simp [hk] at hn
    | unKeyNone => rfl
    | str hf => simp at hf
    | num hf => simp at hf
    | int hf => simp at hf
    | intNone hf => simp at hf
    | key hf => simp at hf
  | print hu =>
    cases h' with
    | print hu' => rw [hu.det hu']
    | str hf => simp at hf
    | num hf => simp at hf
    | int hf => simp at hf
    | intNone hf => simp at hf
    | key hf => simp at hf
  | printNone =>
    cases h' with
    | printNone => rfl
    | str hf => simp at hf
    | num hf => simp at hf
    | intNone hf => simp at hf
    | key hf => simp at hf

theorem Leads.unique {f : NavFn} {G : Graph} {x k k' : Option Addr} (hF : Forest G) (h : f.Leads G x k) (h' : f.Leads G x k') : k = k' := by
  have split : ∀ {a : Addr} {l r l' r' : List Addr}, (l ++ a :: r).Nodup → l ++ a :: r = l' ++ a :: r' → r = r' := by
    intro a l r l' r' hn e
    induction l generalizing l' with
    | nil =>
      cases l' with
      | nil => simpa using e
      | cons c l' =>
        simp at e hn
        obtain ⟨rfl, rfl⟩ := e
        simp at hn
    | cons b l ih =>
      cases l' with
      | nil =>
        simp at e hn
        rw [e.1] at hn
        exact absurd rfl hn.1.2.1
      | cons c l' =>
        simp at e hn
        exact ih (by simpa using hn.2) e.2
  cases h with
  | empty => cases h'; rfl
  | begin ha =>
    cases h' with
    | begin ha' => rw [ha] at ha'; cases ha'; rfl
    | obj hf => simp at hf
    | noObj hf => simp at hf
  | next hf hv =>
    cases h' with
    | next hf' hv' =>
      obtain ⟨hn, hk⟩ := hF _ _ _ _ hf hv
      obtain ⟨_, hk'⟩ := hF _ _ _ _ hf' hv'
      obtain ⟨g1, e1, e2, _⟩ := hk _ (List.mem_append_right _ (List.mem_cons_self ..))
      obtain ⟨g2, e3, e4, _⟩ := hk' _ (List.mem_append_right _ (List.mem_cons_self ..))
      rw [e1] at e3; cases e3
      rw [e2] at e4; cases e4
      rw [hf] at hf'; cases hf'
      rw [hv] at hv'
      simp only [GVal.con.injEq] at hv'
      rw [split hn hv'.2]
    | nextRoot ha hp =>
      obtain ⟨_, hk⟩ := hF _ _ _ _ hf hv
      obtain ⟨g1, e1, e2, _⟩ := hk _ (List.mem_append_right _ (List.mem_cons_self ..))
      rw [e1] at ha; cases ha
      rw [e2] at hp; cases hp
    | obj hf => simp at hf
    | noObj hf => simp at hf
  | nextRoot ha hp =>
    cases h' with
    | next hf hv =>
      obtain ⟨_, hk⟩ := hF _ _ _ _ hf hv
      obtain ⟨g1, e1, e2, _⟩ := hk _ (List.mem_append_right _ (List.mem_cons_self ..))
      rw [e1] at ha; cases ha
      rw [e2] at hp; cases hp
    | nextRoot => rfl
    | obj hf => simp at hf
    | noObj hf => simp at hf
  | array ha hv =>
    cases h' with
    | array ha' hv' => rw [ha] at ha'; cases ha'; rw [hv] at hv'; cases hv'; rfl
    | noArray ha' hv' => rw [ha] at ha'; cases ha'; exact absurd hv (hv' _)
    | obj hf => simp at hf
    | noObj hf => simp at hf
  | noArray ha hv =>
    cases h' with
    | array ha' hv' => rw [ha] at ha'; cases ha'; exact absurd hv' (hv _)
    | noArray => rfl
    | obj hf => simp at hf
    | noObj hf => simp at hf
  | obj hf ha hv =>
    cases h' with
    | obj hf' ha' hv' =>
      rw [ha] at ha'; cases ha'; rw [hv] at hv'; cases hv'
      rcases hf with rfl | rfl <;> simp at hf' <;> rw [hf']
    | noObj _ ha' hv' => rw [ha] at ha'; cases ha'; exact absurd hv (hv' _)
    | _ => simp at hf
  | noObj hf ha hv =>
    cases h' with
    | obj _ ha' hv' => rw [ha] at ha'; cases ha'; exact absurd hv' (hv _)
    | noObj => rfl
    | _ => simp at hf

theorem CopyOf.shown {G g : Graph} {x n : Addr} {gn : GNode} (h : CopyOf G x g n gn) : ∃ t, Unf G x t ∧ Unf (G.or g) n t := by
  obtain ⟨t, h1, h2⟩ := h.doc
  refine ⟨t, h1, h2.mono fun a y hy => ?_⟩
  simp [Graph.or, h.fresh a y hy, hy]

theorem CopyOf.docs {s : Store} {g g' : Graph} {x n n' A : Addr} {gn gn' : GNode} (h : CopyOf s.node x g n gn) (h' : CopyOf s.node x g' n' gn')
    {v v' : Addr} (t : Json) : ((s.grow g A).handle v ⟨some n, A⟩).Doc v t ↔ ((s.grow g' A).handle v' ⟨some n', A⟩).Doc v' t := by
  obtain ⟨t1, h1, h2⟩ := h.shown
  obtain ⟨t2, h3, h4⟩ := h'.shown
  cases h1.det h3
  constructor
  · rintro ⟨a, B, hv, hu⟩
    have hv : upd s.hnd v (some ⟨some n, A⟩) v = _ := hv
    rw [upd_same] at hv; cases hv
    cases h2.det (show Unf (s.node.or g) n t from hu)
    exact ⟨n', A, upd_same .., h4⟩
  · rintro ⟨a, B, hv, hu⟩
    have hv : upd s.hnd v' (some ⟨some n', A⟩) v' = _ := hv
    rw [upd_same] at hv; cases hv
    cases h4.det (show Unf (s.node.or g') n' t from hu)
    exact ⟨n, A, upd_same .., h2⟩

theorem Store.isCon.det {s : Store} {v f f' : Addr} {o : Bool} {ks ks' : List Addr} (h : s.isCon v o f ks) (h' : s.isCon v o f' ks') :
    f = f' ∧ ks = ks' := by
  obtain ⟨A, gf, e1, e2, e3⟩ := h
  obtain ⟨A', gf', e1', e2', e3'⟩ := h'
  rw [e1] at e1'; cases e1'
  rw [e2] at e2'; cases e2'
  rw [e3] at e3'; cases e3'
  exact ⟨rfl, rfl⟩

/-- The abstract store leaves nothing open but the names of what is new: in a well-formed
store two ways to carry out a call give the same answer. -/
theorem C34_answers {c : Call D} {r1 r2 : Ans D} {s1 s2 : Store} (hw : Wf s) (h1 : AStep fp s c r1 s1) (h2 : AStep fp s c r2 s2) :
    SameAns s1 s2 r1 r2 := by
  have notItem : ∀ {w o}, s.notItem w o → ∀ {A x gx}, s.hnd w = some ⟨some x, A⟩ → s.node x = some gx →
      (o = true → gx.key.isSome = true) → False := by
    intro w o hn A x gx hw hx hk
    rcases hn with ⟨A', e⟩ | ⟨ho, A', x', gx', e1, e2, e3⟩
    · rw [e] at hw; cases hw
    · rw [e1] at hw; cases hw
      rw [e2] at hx; cases hx
      have := hk ho
      rw [e3] at this; cases this
  have cpy : ∀ {x g n gn}, CopyOf s.node x g n gn → ∃ gx, s.node x = some gx ∧ gn.key = gx.key := fun h => h.key
  have mvd : ∀ {x G gx}, Moved s.node x G → G x = some gx → ∃ gx0, s.node x = some gx0 ∧ gx.key = gx0.key := by
    intro x G gx hm hx
    obtain ⟨g0, g1, e1, e2, _, e3, _⟩ := hm.self
    rw [hx] at e2; cases e2
    exact ⟨g0, e1, e3⟩
  cases h1 with
  | newAlloc => cases h2; exact .alloc
  | release => cases h2; exact .same
  | newValue =>
    cases h2
    refine .handle fun t => ⟨fun ⟨a, B, hv, hu⟩ => ?_, fun ⟨a, B, hv, hu⟩ => ?_⟩ <;>
    · simp only [Store.handle, upd_same] at hv; cases hv
  | parse ht =>
    cases h2 with
    | parse => exact .same
    | parseNo hn => exact absurd ⟨_, ht⟩ hn
  | parseNo hn =>
    cases h2 with
    | parse ht => exact absurd ⟨_, ht⟩ hn
    | parseNo => exact .same
  | text ht =>
    cases h2 with
    | text => exact .same
    | textNo _ hn => exact absurd ht (hn _)
  | textNo _ hn =>
    cases h2 with
    | text ht => exact absurd ht (hn _)
    | textNo => exact .same
  | null => cases h2; exact .same
  | bool => cases h2; exact .same
  | array => cases h2; exact .same
  | object => cases h2; exact .same
  | int => cases h2; exact .same
  | double => cases h2; exact .same
  | key ht hT ho =>
    cases h2 with
    | key => exact .same
    | keyNo _ hn => exact absurd ht (hn _)
    | keyInArray hv ha hp hgp hty =>
      cases hT with
      | old hv' ha' =>
        rw [hv] at hv'; cases hv'
        rw [ha] at ha'; cases ha'
        exact absurd (ho _ _ hp hgp) hty
      | new hv' => rw [hv] at hv'; cases hv'
  | keyNo _ hn =>
    cases h2 with
    | key ht => exact absurd ht (hn _)
    | keyNo => exact .same
    | keyInArray => exact .same
  | keyInArray hv ha hp hgp hty =>
    cases h2 with
    | key _ hT ho =>
      cases hT with
      | old hv' ha' =>
        rw [hv] at hv'; cases hv'
        rw [ha] at ha'; cases ha'
        exact absurd (ho _ _ hp hgp) hty
      | new hv' => rw [hv] at hv'; cases hv'
    | keyNo => exact .same
    | keyInArray => exact .same
  | get hv ha =>
    cases h2 with
    | get hv' ha' => rw [hv] at hv'; cases hv'; rw [Answers.unique ha ha']; exact .same
  | nav hv hl =>
    cases h2 with
    | nav hv' hl' =>
      rw [hv] at hv'; cases hv'
      cases Leads.unique hw.forest hl hl'
      refine .handle fun t => ⟨fun ⟨a, B, hv, hu⟩ => ?_, fun ⟨a, B, hv, hu⟩ => ?_⟩ <;>
      · simp only [Store.handle, upd_same] at hv; cases hv
        exact ⟨_, _, upd_same .., hu⟩
    | navNo hv' hl' =>
      rw [hv] at hv'; cases hv'
      cases Leads.unique hw.forest hl hl'
  | navNo hv hl =>
    cases h2 with
    | nav hv' hl' =>
      rw [hv] at hv'; cases hv'
      cases Leads.unique hw.forest hl hl'
    | navNo => exact .same
  | copy hv hc =>
    cases h2 with
    | copy hv' hc' => rw [hv] at hv'; cases hv'; exact .handle (hc.docs hc')
    | copyNo hv' => rw [hv] at hv'; cases hv'
  | copyNo hv =>
    cases h2 with
    | copy hv' => rw [hv] at hv'; cases hv'
    | copyNo => exact .same
  | move hv =>
    cases h2 with
    | move => exact .same
    | moveNo hv' => rw [hv] at hv'; cases hv'
  | moveNo hv =>
    cases h2 with
    | move hv' => rw [hv] at hv'; cases hv'
    | moveNo => exact .same
  | addFast hc hv hm hx hk =>
    cases h2 with
    | addFast => exact .same
    | addNo hn =>
      rcases hn with hn | hn
      · exact absurd hc (hn.2 _ _)
      · obtain ⟨g0, e1, e2⟩ := mvd hm hx
        exact (notItem hn hv e1 fun ho => e2 ▸ hk ho).elim
  | add hc hv hcp hk =>
    cases h2 with
    | add => exact .same
    | addNo hn =>
      rcases hn with hn | hn
      · exact absurd hc (hn.2 _ _)
      · obtain ⟨g0, e1, e2⟩ := cpy hcp
        exact (notItem hn hv e1 fun ho => e2 ▸ hk ho).elim
  | addNo hn =>
    cases h2 with
    | addFast hc hv hm hx hk =>
      rcases hn with hn | hn
      · exact absurd hc (hn.2 _ _)
      · obtain ⟨g0, e1, e2⟩ := mvd hm hx
        exact (notItem hn hv e1 fun ho => e2 ▸ hk ho).elim
    | add hc hv hcp hk =>
      rcases hn with hn | hn
      · exact absurd hc (hn.2 _ _)
      · obtain ⟨g0, e1, e2⟩ := cpy hcp
        exact (notItem hn hv e1 fun ho => e2 ▸ hk ho).elim
    | addNo => exact .same
  | delAt hc =>
    generalize he : List.length _ = i at h2
    cases h2 with
    | delAt => exact .same
    | delAtNo hn =>
      rcases hn with hn | ⟨f, ks, hn, hl⟩
      · exact absurd hc (hn.2 _ _)
      · rw [← (hc.det hn).2] at hl
        simp at hl; omega
  | delAtNo hn =>
    cases h2 with
    | delAt hc =>
      rcases hn with hn | ⟨f, ks, hn, hl⟩
      · exact absurd hc (hn.2 _ _)
      · rw [← (hc.det hn).2] at hl
        simp at hl; omega
    | delAtNo => exact .same
  | delKey hc hf =>
    cases h2 with
    | delKey => exact .same
    | delKeyNo hn =>
      rcases hn with hn | ⟨f, ks, hn, hl⟩
      · exact absurd hc (hn.2 _ _)
      · rw [← (hc.det hn).2, hf] at hl; cases hl
  | delKeyNo hn =>
    cases h2 with
    | delKey hc hf =>
      rcases hn with hn | ⟨f, ks, hn, hl⟩
      · exact absurd hc (hn.2 _ _)
      · rw [← (hc.det hn).2, hf] at hl; cases hl
    | delKeyNo => exact .same
  | setFast _ hw =>
    cases h2 with
    | setNo hv' => rw [hw] at hv'; cases hv'
    | _ => exact .same
  | setFastNew _ hw =>
    cases h2 with
    | setNo hv' => rw [hw] at hv'; cases hv'
    | _ => exact .same
  | set _ hw =>
    cases h2 with
    | setNo hv' => rw [hw] at hv'; cases hv'
    | _ => exact .same
  | setNew _ hw =>
    cases h2 with
    | setNo hv' => rw [hw] at hv'; cases hv'
    | _ => exact .same
  | setNo hw =>
    cases h2 with
    | setNo => exact .same
    | setFast _ hv' => rw [hw] at hv'; cases hv'
    | setFastNew _ hv' => rw [hw] at hv'; cases hv'
    | set _ hv' => rw [hw] at hv'; cases hv'
    | setNew _ hv' => rw [hw] at hv'; cases hv'

/-! ### Calls that run into a defect -/

/-- The calls one after the other, whatever the answers are. -/
def Prog.seq : List (Call D) → Prog D
  | [] => .done
  | c :: cs => .call c fun _ => Prog.seq cs

/-- C34 is false: with handles that are all in use, these calls dereference null
(zzzjson.h:2631, C33: `zj_Set` copies the pointer to the last child). -/
theorem C34_false_ub : ((Prog.seq [.newAlloc, .newValue 0, .newValue 0, .newValue 0, .parse .parse 0 b!"[1]",
    .parse .parse 1 b!"[2,3]", .parse .parse 2 b!"7", .set false 0 1, .add false false 0 2, .get .print 1]).run
    (⟨fun _ => [], fun _ => ()⟩ : FP Unit) 99 (St.init fun _ => 0)).out = .ub .nullDeref := by decide +kernel

/-- C34 is false: an array that has three elements prints as `[2,3]`. No store of documents
answers that. -/
theorem C34_false_answer : ((Prog.seq [.newAlloc, .newValue 0, .newValue 0, .newValue 0, .parse .parse 0 b!"[1]",
    .parse .parse 1 b!"[2,3]", .parse .parse 2 b!"7", .set false 0 1, .add false false 0 2, .get .size 0, .get .print 0]).run
    (⟨fun _ => [], fun _ => ()⟩ : FP Unit) 99 (St.init fun _ => 0)).out =
    .ok [.alloc 0, .handle (some 0), .handle (some 1), .handle (some 2), .bool true, .bool true, .bool true, .bool true, .bool true,
      .nat 3, .bytes (some b!"[2,3]")] := by decide +kernel

end ZJ
