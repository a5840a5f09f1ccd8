import Verif.ConcFns

/-
Threads, the clients: a call of the API and a whole client in steps.
-/

set_option linter.unusedSimpArgs false
set_option linter.unusedVariables false

namespace ZJ

variable {N : Nat} {D : Type} {fp : FP D} {F : Nat}

/-! ### Calls with the addresses of a thread -/

def Call.tag (t : Fin N) : Call D → Call D
  | .newAlloc => .newAlloc
  | .release A => .release (ZJ.tag t A)
  | .newValue A => .newValue (ZJ.tag t A)
  | .parse f v b => .parse f (ZJ.tag t v) b
  | .text f v b => .text f (ZJ.tag t v) b
  | .null v => .null (ZJ.tag t v)
  | .bool v b => .bool (ZJ.tag t v) b
  | .array v => .array (ZJ.tag t v)
  | .object v => .object (ZJ.tag t v)
  | .int f v n => .int f (ZJ.tag t v) n
  | .double v d => .double (ZJ.tag t v) d
  | .key f v b => .key f (ZJ.tag t v) b
  | .get f v => .get f (ZJ.tag t v)
  | .nav f v => .nav f (ZJ.tag t v)
  | .copy v => .copy (ZJ.tag t v)
  | .move v => .move (ZJ.tag t v)
  | .add o fast v w => .add o fast (ZJ.tag t v) (ZJ.tag t w)
  | .delAt v i => .delAt (ZJ.tag t v) i
  | .delKey v k => .delKey (ZJ.tag t v) k
  | .set fast v w => .set fast (ZJ.tag t v) (ZJ.tag t w)

def Ans.tag (t : Fin N) : Ans D → Ans D
  | .alloc A => .alloc (ZJ.tag t A)
  | .handle v => .handle (v.map (ZJ.tag t))
  | r => r

def Tab.tag (t : Fin N) (T : Tab) : Tab := ⟨T.hs.map (ZJ.tag t), T.as.map (ZJ.tag t)⟩

theorem Tab.tag_call {t : Fin N} {T : Tab} {c : Call D} : (T.tag t).call c = (T.call c).map (·.tag t) := by
  cases c <;> simp only [Tab.call, Tab.tag, List.getElem?_map, Option.map_map] <;> try rfl
  · rename_i v w
    cases T.hs[v]? <;> cases T.hs[w]? <;> rfl
  · rename_i v w
    cases T.hs[v]? <;> cases T.hs[w]? <;> rfl

theorem Tab.tag_ans {t : Fin N} {T : Tab} {r : Ans D} : (T.tag t).ans (r.tag t) = T.ans r := by
  cases r with
  | handle v => cases v <;> simp [Tab.ans, Ans.tag, Tab.tag]
  | _ => simp [Tab.ans, Ans.tag, Tab.tag]

theorem Tab.tag_next {t : Fin N} {T : Tab} {r : Ans D} : (T.tag t).next (r.tag t) = (T.next r).tag t := by
  cases r with
  | handle v => cases v <;> simp [Tab.next, Ans.tag, Tab.tag]
  | _ => simp [Tab.next, Ans.tag, Tab.tag]

/-! ### The clients in steps -/

/-- The client as a thread: it makes its calls one after the other, each in steps, and has in
the end what it was told. -/
def Thr.run (fp : FP D) (F : Nat) : Prog D → Tab → Act (List (Ans D))
  | .done, _ => return []
  | .call c k, T =>
    match T.call c with
    | none => return []
    | some c' => do
      let r ← Thr.exec fp F c'
      let rs ← Thr.run fp F (k (T.ans r)) (T.next r)
      return T.ans r :: rs

section
variable {who t : Fin N} {α β : Type}

theorem Sim.withText {d : Bytes} {keep : Bool} {f : SPtr → M α} {g : SPtr → Act β} {e : α → β} (h : ∀ p : SPtr, Sim who t (f p) (g (p.tag t)) e) :
    Sim who t (ZJ.withText d keep f) (Thr.withText d keep g) e := by
  unfold ZJ.withText Thr.withText
  refine Sim.bind Sim.callerText fun p => Sim.bind (h p) fun r => Sim.ite Iff.rfl (Sim.pure rfl) ?_
  exact Sim.bind Sim.freeText fun _ => Sim.pure rfl

theorem Sim.readC {o o' : Option SPtr} (h : o' = o.map (·.tag t)) : Sim who t (ZJ.readC o) (Thr.readC o') id := by
  subst h
  cases o with
  | none => exact Sim.pure rfl
  | some p =>
    dsimp only [Option.map_some]
    unfold ZJ.readC Thr.readC
    sim

macro_rules | `(tactic| sim1) => `(tactic| ((with_reducible refine Sim.readC ?_) <;> args))

theorem Sim.readL {o o' : Option (SPtr × Nat)} (h : o' = o.map fun x => (x.1.tag t, x.2)) : Sim who t (ZJ.readL o) (Thr.readL o') id := by
  subst h
  cases o with
  | none => exact Sim.pure rfl
  | some p =>
    obtain ⟨p, n⟩ := p
    dsimp only [Option.map_some]
    unfold ZJ.readL Thr.readL
    sim

macro_rules | `(tactic| sim1) => `(tactic| ((with_reducible refine Sim.readL ?_) <;> args))

theorem Sim.parseRun {f : ParseFn} {v n : Nat} {p : SPtr} : Sim who t (f.run v n p) (Thr.parseRun f (tag t v) n (p.tag t)) id := by
  cases f <;> dsimp only [ParseFn.run, Thr.parseRun] <;> sim

theorem Sim.textRun {f : TextFn} {v n : Nat} {p : SPtr} (h : f.scratch = true → t = who) :
    Sim who t (f.run v n p) (Thr.textRun f (tag t v) n (p.tag t)) id := by
  cases f <;> dsimp only [TextFn.run, Thr.textRun] <;> (try have ht := h rfl) <;> sim

theorem Sim.keyRun {f : KeyFn} {v n : Nat} {p : SPtr} (h : f.scratch = true → t = who) :
    Sim who t (f.run v n p) (Thr.keyRun f (tag t v) n (p.tag t)) id := by
  cases f <;> dsimp only [KeyFn.run, Thr.keyRun] <;> (try have ht := h rfl) <;> sim

theorem Sim.intRun {f : IntFn} {v : Nat} {n : Int} : Sim who t (f.run v n) (Thr.intRun f (tag t v) n) id := by
  cases f <;> dsimp only [IntFn.run, Thr.intRun] <;> sim

theorem Sim.getRun {f : GetFn} {v : Nat} : Sim who t (f.run fp F v) (Thr.getRun fp F f (tag t v)) (·.tag t) := by
  cases f <;> dsimp only [GetFn.run, Thr.getRun] <;> sim

theorem Sim.navRun {f : NavFn} {v : Nat} : Sim who t (f.run F v) (Thr.navRun F f (tag t v)) fun o => o.map (tag t) := by
  cases f <;> dsimp only [NavFn.run, Thr.navRun]
  · sim
  · sim
  · sim
  · exact Sim.withText fun p => by sim
  · exact Sim.withText fun p => by sim

/-- A call in steps does in the shared memory what it does alone. -/
theorem Sim.exec {c : Call D} (h : c.scratches = true → t = who) : Sim who t (ZJ.exec fp F c) (Thr.exec fp F (c.tag t)) (·.tag t) := by
  cases c with
  | newAlloc => exact Sim.bind Sim.newAllocator fun _ => Sim.pure rfl
  | release A => exact Sim.bind Sim.releaseAllocator fun _ => Sim.pure rfl
  | newValue A => exact Sim.bind (Sim.newValue rfl) fun _ => Sim.pure rfl
  | parse f v b => exact Sim.bind (Sim.withText fun _ => Sim.parseRun) fun _ => Sim.pure rfl
  | text f v b => exact Sim.bind (Sim.withText fun _ => Sim.textRun h) fun _ => Sim.pure rfl
  | null v => exact Sim.bind (Sim.setNull rfl) fun _ => Sim.pure rfl
  | bool v b => exact Sim.bind (Sim.setBool rfl) fun _ => Sim.pure rfl
  | array v => exact Sim.bind (Sim.setArray rfl) fun _ => Sim.pure rfl
  | object v => exact Sim.bind (Sim.setObj rfl) fun _ => Sim.pure rfl
  | int f v n => exact Sim.bind Sim.intRun fun _ => Sim.pure rfl
  | double v d => exact Sim.bind (Sim.setDouble rfl) fun _ => Sim.pure rfl
  | key f v b => exact Sim.bind (Sim.withText fun _ => Sim.keyRun h) fun _ => Sim.pure rfl
  | get f v => exact Sim.getRun
  | nav f v => exact Sim.bind Sim.navRun fun _ => Sim.pure rfl
  | copy v => exact Sim.bind (Sim.copy rfl) fun _ => Sim.pure rfl
  | move v => exact Sim.bind (Sim.move rfl) fun _ => Sim.pure rfl
  | add o fast v w =>
    cases o <;> cases fast
    · exact Sim.bind (Sim.arrayAdd rfl rfl) fun _ => Sim.pure rfl
    · exact Sim.bind (Sim.arrayAddFast rfl rfl) fun _ => Sim.pure rfl
    · exact Sim.bind (Sim.objAdd rfl rfl) fun _ => Sim.pure rfl
    · exact Sim.bind (Sim.objAddFast rfl rfl) fun _ => Sim.pure rfl
  | delAt v i => exact Sim.bind (Sim.arrayDel rfl) fun _ => Sim.pure rfl
  | delKey v k => exact Sim.bind (Sim.withText fun _ => Sim.objDel rfl rfl) fun _ => Sim.pure rfl
  | set fast v w =>
    cases fast
    · exact Sim.bind (Sim.set rfl rfl) fun _ => Sim.pure rfl
    · exact Sim.bind (Sim.setFast rfl rfl) fun _ => Sim.pure rfl

/-- A client as a thread does in the shared memory what it does alone. -/
theorem Sim.run {p : Prog D} : ∀ {T : Tab}, (p.Never Call.scratches ∨ t = who) → ∀ {s s' : St} {rs : List (Ans D)}, (p.named T).run fp F s = .ok (rs, s') →
    ∃ n, Runs who t n (Thr.run fp F p (T.tag t)) s (T.views rs) s' := by
  induction p with
  | done =>
    intro T h s s' rs e
    cases e
    exact ⟨0, .ret⟩
  | call c k ih =>
    intro T h s s' rs e
    unfold Prog.named at e
    unfold Thr.run
    rw [Tab.tag_call]
    cases hc : T.call c with
    | none =>
      rw [hc] at e
      cases e
      exact ⟨0, .ret⟩
    | some c' =>
      rw [hc] at e
      obtain ⟨r, s1, e1, e2⟩ := M.bind_split e
      obtain ⟨rs1, s2, e3, e4⟩ := M.bind_split e2
      cases e4
      obtain ⟨n1, h1⟩ := Sim.exec (who := who) (t := t) (by rw [(Tab.call_same hc).1]; intro hs; exact h.elim (fun h => by rw [h.1] at hs; cases hs) id) _ _ _ e1
      obtain ⟨n2, h2⟩ := ih (T.ans r) (h.imp_left fun h => h.2 _) e3
      refine ⟨_, h1.bind (Runs.bind (n := n2) (k := 0) (a := (T.next r).views rs1) (s1 := s') ?_ ?_)⟩
      · rw [Tab.tag_ans, Tab.tag_next]; exact h2
      · rw [Tab.tag_ans]; exact .ret

end

end ZJ
