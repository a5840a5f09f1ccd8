import Verif.PropLayout
import Verif.PropPlain

/-
C49: the 32-bit counters and lengths do not wrap around.

The model counts with natural numbers; the code keeps lengths, numbers of children and block
sizes in `uint32_t` (`zj_Size`, zzzjson.h:55). Here all these numbers are shown to stay below
2^32 in every run of allowed calls within the memory that the chunk allocator can serve (C39),
so that counting modulo 2^32 makes no difference there.
-/

set_option linter.unusedSimpArgs false
set_option linter.unusedVariables false

namespace ZJ

open Alloc

/-- Sizes are covered by what was asked for. -/
structure Narrow (st : St) : Prop where
  count : 72 * st.nn ≤ total st.log
  own : ∀ b x A, st.bufs b = some x → x.owner = some A → x.size ≤ asked A st.log
  caller : ∀ b x, st.bufs b = some x → x.owner = none → x.size < 4294967296

theorem asked_le (A B n : Nat) (l : List Ev) : asked A l ≤ asked A (.alloc B n :: l) := by
  simp only [asked]; split <;> omega

theorem Narrow.hop {Q : Nat → Prop} {st st' : St} (h : Narrow st) (hs : Hop Q (fun d => d.length < 4294967296) 0 st st') : Narrow st' := by
  cases hs with
  | @request A n hA =>
    exact ⟨by have := h.count; simp only [total]; omega, fun b x B hb ho => Nat.le_trans (h.own b x B hb ho) (asked_le ..), h.caller⟩
  | @node A hA =>
    refine ⟨?_, fun b x B hb ho => Nat.le_trans (h.own b x B hb ho) (asked_le ..), h.caller⟩
    have := h.count
    simp only [St.addN, total]; omega
  | @val A o hA =>
    refine ⟨?_, fun b x B hb ho => Nat.le_trans (h.own b x B hb ho) (asked_le ..), h.caller⟩
    have := h.count
    simp only [St.addV, total]; omega
  | @buf A n d hA hd =>
    refine ⟨?_, fun b x B hb ho => ?_, fun b x hb ho => ?_⟩
    · have := h.count
      simp only [St.addB, total]; omega
    · simp only [St.addB, upd] at hb
      split at hb
      · cases hb; cases ho
        simp only [St.addB, asked, if_true]; omega
      · exact Nat.le_trans (h.own b x B hb ho) (asked_le ..)
    · simp only [St.addB, upd] at hb
      split at hb
      · cases hb; cases ho
      · exact h.caller b x hb ho
  | @str A n hA =>
    refine ⟨?_, fun b x B hb ho => ?_, fun b x hb ho => ?_⟩
    · have := h.count
      simp only [St.addS, total]; omega
    · simp only [St.addS, upd] at hb
      split at hb
      · cases hb; cases ho
        simp only [St.addS, asked, if_true]; omega
      · exact Nat.le_trans (h.own b x B hb ho) (asked_le ..)
    · simp only [St.addS, upd] at hb
      split at hb
      · cases hb; cases ho
      · exact h.caller b x hb ho
  | @setBuf c y d _ hy hd =>
    refine ⟨h.count, fun b x B hb ho => ?_, fun b x hb ho => ?_⟩
    · simp only [upd] at hb
      split at hb
      · rename_i e; subst e; cases hb; exact h.own b y B hy ho
      · exact h.own b x B hb ho
    · simp only [upd] at hb
      split at hb
      · rename_i e; subst e; cases hb; exact h.caller b y hy ho
      · exact h.caller b x hb ho
  | @release R hR =>
    have hb' : ∀ b x, (st.without R).bufs b = some x → st.bufs b = some x := fun b x hb => by
      simp only [St.without, Option.bind_eq_some_iff] at hb
      obtain ⟨z, hz, hb⟩ := hb
      split at hb
      · cases hb
      · cases hb; exact hz
    exact ⟨h.count, fun b x B hb => h.own b x B (hb' b x hb), fun b x hb => h.caller b x (hb' b x hb)⟩
  | @caller d hd =>
    refine ⟨h.count, fun b x B hb ho => ?_, fun b x hb ho => ?_⟩
    · simp only [St.addC, upd] at hb
      split at hb
      · cases hb; cases ho
      · exact h.own b x B hb ho
    · simp only [St.addC, upd] at hb
      split at hb
      · cases hb; exact hd
      · exact h.caller b x hb ho
  | @free c _ _ _ =>
    have hb' : ∀ b x, (st.clobber c none).bufs b = some x → st.bufs b = some x := fun b x hb => by
      simp only [St.clobber, upd] at hb
      split at hb
      · cases hb
      · exact hb
    exact ⟨h.count, fun b x B hb => h.own b x B (hb' b x hb), fun b x hb => h.caller b x (hb' b x hb)⟩
  | _ => exact ⟨h.count, h.own, h.caller⟩

theorem Narrow.init (slack : Nat → Nat) : Narrow (St.init slack cfg) :=
  ⟨Nat.le_refl 0, fun _ _ _ h => (nomatch h), fun _ _ h => (nomatch h)⟩

/-- Different numbers below `n` are at most `n`. -/
theorem nodup_length : ∀ (n : Nat) (l : List Nat), l.Nodup → (∀ a ∈ l, a < n) → l.length ≤ n
  | 0, [], _, _ => Nat.le_refl _
  | 0, x :: _, _, h => absurd (h x (List.mem_cons_self ..)) (Nat.not_lt_zero _)
  | n + 1, l, hl, h => by
    have := nodup_length n (l.erase n) (hl.erase n) fun a ha => by
      have h1 := (List.Nodup.mem_erase_iff hl).1 ha
      have := h a h1.2
      omega
    have := List.length_erase (a := n) (l := l)
    split at this <;> omega

/-- A text at a pointer is not longer than a block. -/
theorem StrAt.short {st : St} {P : Addr → Prop} {p : SPtr} {t : Bytes} (h : StrAt st P p t)
    (hb : ∀ b x, st.bufs b = some x → x.data.length < 4294967296) : t.length < 4294967296 := by
  cases p with
  | lit s =>
    obtain ⟨r, h⟩ := h
    have := congrArg List.length h
    have := s.short
    simp at *
    omega
  | buf b off =>
    obtain ⟨_, x, r, h1, h2⟩ := h
    have := congrArg List.length h2
    have := hb b x h1
    simp at *
    omega

/-- C49: a client makes allowed calls with texts shorter than 4 GiB; every allocator is asked for
less than 4 GiB (the chunk allocator serves half of that, C39) and all together for
less than 288 GiB. Then in the end every block of bytes is smaller than 2^32 bytes, and for
every node of a document that the client may use, the length of its text or the number of its
children, and the length of its key, are below 2^32: none of the 32-bit fields has wrapped. -/
theorem C49_no_wrap_partial {D : Type} {fp : FP D} {slack : Nat → Nat} {pad : Bool} (hpad : pad = true → ∀ b, 3 ≤ slack b)
    (p : Prog D) (hs : p.Safe fp (Store.init pad)) (hK : p.Hands fun d => d.length < 4294967296) :
    ∃ c rs st' s', (∀ F, c ≤ F → p.run fp F (St.init slack cfg) = .ok (rs, st')) ∧ p.Gives fp (Store.init pad) rs s' ∧
      ((∀ A, asked A st'.log < 4294967296) → total st'.log < 72 * 4294967296 →
        (∀ b x, st'.bufs b = some x → x.size < 4294967296 ∧ x.data.length ≤ x.size) ∧
        ∀ a gn, s'.node a = some gn → ∃ n l, st'.nodes a = some n ∧ n.len = some l ∧ l < 4294967296 ∧
          (∀ o ks, gn.val = .con o ks → l = ks.length) ∧ (∀ t, gn.val = .str t ∨ gn.val = .num t → l = t.length) ∧
          ∀ k, gn.key = some k → n.keyLen = some k.length ∧ k.length < 4294967296) := by
  obtain ⟨c, rs, st', s', P', h1, h2, h3⟩ := Prog.goes (fp := fp) (WP.init hpad) hs
  refine ⟨c, rs, st', s', h1, h2, fun hA hT => ?_⟩
  have hN : Narrow st' := (Prog.traces fp c p hK _ _ _ (Nat.zero_le _) (h1 c (Nat.le_refl _))).keeps (fun _ _ h hI => Narrow.hop hI h) (Narrow.init slack)
  have hb : ∀ b x, st'.bufs b = some x → x.size < 4294967296 ∧ x.data.length ≤ x.size := by
    intro b x hx
    refine ⟨?_, h3.inv.ok.size b x hx⟩
    cases ho : x.owner with
    | none => exact hN.caller b x hx ho
    | some A => have := hN.own b x A hx ho; have := hA A; omega
  have hb' : ∀ b x, st'.bufs b = some x → x.data.length < 4294967296 := fun b x hx => by have := hb b x hx; omega
  refine ⟨hb, fun a gn ha => ?_⟩
  obtain ⟨n, hn, hk⟩ := h3.inv.rep a gn ha
  have hkey : ∀ k, gn.key = some k → n.keyLen = some k.length ∧ k.length < 4294967296 := by
    intro k e
    have := hk.key
    rw [e] at this
    obtain ⟨q, _, g2, g3⟩ := this
    exact ⟨g2, g3.short hb'⟩
  cases hv : gn.val with
  | con o ks =>
    have hc := hk.val
    rw [hv] at hc
    have hc : ConOK st' s'.node a n o ks gn.endOK := hc
    refine ⟨n, ks.length, hn, hc.len, ?_, (fun o' ks' e => by cases e; rfl), (fun t e => by rcases e with e | e <;> cases e), hkey⟩
    have := nodup_length st'.nn ks hc.nodup fun k hk => by
      obtain ⟨gk, g1, _⟩ := hc.kid k hk
      exact h3.inv.lt g1
    have := hN.count
    omega
  | _ =>
    have hc := hk.val
    rw [hv] at hc
    obtain ⟨_, q, g1, g2, g3, _⟩ := (hc : ScalarOK st' P' n _)
    refine ⟨n, _, hn, g2, g3.short hb', (fun o' ks' e => by cases e), fun t e => ?_, hkey⟩
    rcases e with e | e <;> cases e <;> rfl

/-- A client that meets the hypotheses (it is `Safe` by the example in `PropPlain`). -/
example {D : Type} : (plainClient : Prog D).Hands fun d => d.length < 4294967296 := by
  refine ⟨fun d h => (nomatch h), fun r => ?_⟩
  cases r with
  | alloc A =>
    refine ⟨fun d h => (nomatch h), fun r => ?_⟩
    cases r with
    | handle v =>
      cases v with
      | none => trivial
      | some v =>
        refine ⟨fun d h => ?_, fun _ => ⟨fun d h => (nomatch h), fun _ => ⟨fun d h => (nomatch h), fun _ =>
          ⟨fun d h => (nomatch h), fun _ => ⟨fun d h => (nomatch h), fun _ => trivial⟩⟩⟩⟩⟩
        have : d = passed ParseFn.parse.len b!"[1,[true]]" := by simpa [Call.texts] using h
        rw [this]; decide
    | _ => trivial
  | _ => trivial

/-- What it asks for: 4 nodes, 2 handles, the text, a buffer for printing. -/
example : (match (plainClient : Prog Unit).run (⟨fun _ => [], fun _ => ()⟩ : FP Unit) 99 (St.init fun _ => 0) with
    | .ok (_, st) => some (asked 0 st.log, total st.log)
    | _ => none) = some (1379, 1379) := by decide +kernel

end ZJ
