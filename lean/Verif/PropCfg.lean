import Verif.PropBuf
import Verif.PropLayout
import Verif.PropMix

/-
C57: the memory settings of zzzjson.h:50-70 change how memory is obtained and nothing else.

`Cfg` holds the settings of the API model (`zj_DELTA`, `zj_STRING_INIT_MEMSIZE`,
`zj_STRING_CACHE_INIT_MEMSIZE`), `Knobs` those of the chunk allocator (`zj_DELTA`,
`zj_ALLOCATOR_INIT_MEMSIZE`). All theorems about client programs hold for every `Cfg`, those
about the allocator for every `Knobs` that is `Sensible`.
-/

set_option linter.unusedVariables false

namespace ZJ

open Alloc

/-- The settings of the allocator that go with those of the API: the same factor, and any size
of the first chunk. -/
@[reducible] def Cfg.knobs (cfg : Cfg) (chunk : Nat) : Knobs := ⟨chunk, cfg.delta⟩

theorem Cfg.sensible (cfg : Cfg) {chunk : Nat} (h1 : 1 ≤ chunk) (h2 : chunk + 40 < 4294967296) : @Sensible (cfg.knobs chunk) :=
  @Sensible.mk (cfg.knobs chunk) h1 cfg.delta_gt h2

/-- C57: an allowed client is told the same with any two settings; with each of them, as long
as the chunk allocator has room for what is asked of it, the calls it is asked to serve
succeed, and every live object has memory of its own. Partial: `Room` is a bound on what is
asked for, see `C57_room`. -/
theorem C57_settings_partial {D : Type} {fp : FP D} {pad : Bool} {slack slack' : Nat → Nat} (hp : pad = true → ∀ b, 3 ≤ slack b)
    (hp' : pad = true → ∀ b, 3 ≤ slack' b) (cfg cfg' : Cfg) {chunk : Nat} (h1 : 1 ≤ chunk) (h2 : chunk + 40 < 4294967296)
    {E : Env} (hE : Sound E) (hP : Plenty E) (p : Prog D) (hs : (p.named .empty).Safe fp (Store.init pad)) :
    ∃ c rs rs' st st', (∀ F, c ≤ F → (p.named .empty).run fp F (St.init slack cfg) = .ok (rs, st)) ∧
      (∀ F, c ≤ F → (p.named .empty).run fp F (St.init slack' cfg') = .ok (rs', st')) ∧
      Tab.empty.views rs' = Tab.empty.views rs ∧
      ((∀ A, @Alloc.Room (cfg.knobs chunk) (asked A st.log)) → ∀ fuel, 33 ≤ fuel →
        ∃ r place, @replay (cfg.knobs chunk) E fuel st.log = .ok r ∧ Laid st r place ∧
          ∀ A b, r.Gave A b → ∃ m ∈ r.w.m.live, Within b m) := by
  obtain ⟨c, rs, rs', st, st', e, e', hv⟩ := C53_answers (cfg := cfg) (cfg' := cfg') hp hp' p hs
  refine ⟨c, rs, rs', st, st', e, e', hv, fun hR fuel hf => ?_⟩
  letI := cfg.knobs chunk
  haveI := cfg.sensible h1 h2
  obtain ⟨r, r', pl, pl', g1, g2, g3, g4, g5, _⟩ := C48_own_memory_partial hE hP hf (q := .done) (rs' := []) (e c (Nat.le_refl _)) rfl hR
  exact ⟨r', pl', g2, g4, g5⟩

/-- How much room there is: any amount that, multiplied by the factor, is below 2^32 by 24. -/
theorem C57_room [Knobs] {R : Nat} (h : delta * R + 24 ≤ 4294967296) : Alloc.Room R := Alloc.Room.of_mul h

/-- With the default settings it is exactly 2 GiB. -/
theorem C57_room_default {R : Nat} : @Alloc.Room Knobs.default R ↔ R ≤ 2147483648 := by
  refine ⟨fun h => ?_, Alloc.Room.default⟩
  rcases Nat.lt_or_ge 2147483648 R with hR | hR
  · have := h 20 (show 4096 * 2 ^ 20 < 2 * R by omega)
    have : 4096 * 2 ^ 20 + 24 < 4294967296 := this
    omega
  · exact hR

/-- Settings other than the default: factor 3, output strings and the text cache start with one
byte. The client prints a document and asks for the length of its number. -/
example : ((Prog.seq [.newAlloc, .newValue 0, .parse .parse 0 b!"[12,{\"a\":true}]", .get .print 0, .nav (.array 0) 0, .get .unStr 1, .get .print 1]).run
    (⟨fun _ => [], fun _ => ()⟩ : FP Unit) 99
    (St.init (fun _ => 0) ⟨3, 1, 1, by decide, by decide, by decide⟩)).out =
    ((Prog.seq [.newAlloc, .newValue 0, .parse .parse 0 b!"[12,{\"a\":true}]", .get .print 0, .nav (.array 0) 0, .get .unStr 1, .get .print 1]).run
    (⟨fun _ => [], fun _ => ()⟩ : FP Unit) 99 (St.init fun _ => 0)).out := by decide +kernel

/-- An allocator that starts with 10 bytes and grows by the factor 3: four requests, three
chunks. -/
example : (match @Alloc.run ⟨10, 3⟩ bump 50 World.init [.new, .alloc 0 8, .alloc 0 25, .alloc 0 5, .alloc 0 1] with
    | .ok w => some (w.hs.map Hand.blocks, w.m.live.map (·.2))
    | _ => none) = some ([[(168, 1), (129, 5), (104, 25), (56, 8)]], [114, 54, 50]) := by decide +kernel

/-! ### Settings that do not work -/

section
variable [Knobs]

theorem growTo_stuck {size : Nat} (hd : delta ≤ 1) : ∀ (fuel s : Nat), s < size → growTo fuel s size = .timeout
  | 0, _, _ => rfl
  | fuel + 1, s, h => by
    unfold growTo
    rw [if_pos h]
    have h1 : s * delta ≤ s * 1 := Nat.mul_le_mul_left _ hd
    have h2 : w32 (s * delta) ≤ s * delta := Nat.mod_le ..
    exact growTo_stuck hd fuel _ (by omega)

/-- The documentation asks for a factor greater than 1. With a smaller one, the first request
that does not fit in the first chunk never returns. -/
theorem C57_false_delta {E : Env} (hE : Sound E) (hP : Plenty E) (hd : delta ≤ 1) (hc : chunk + 40 < 4294967296)
    {size : Nat} (h1 : chunk < size) (h2 : size < 4294967296) (fuel : Nat) :
    Alloc.run E fuel World.init [.new, .alloc 0 size] = .timeout := by
  obtain ⟨p, hp⟩ := Option.isSome_iff_exists.1 (hP World.init.m.calls World.init.m.live (40 + chunk))
  obtain ⟨m', e1, e2, e3, e4, e5, e6⟩ := newAllocator_fits hc hE WInv.init.sep hp
  have hcap : (Own.fresh p).last.cap = chunk := rfl
  have hpos : (Own.fresh p).last.pos = 0 := rfl
  have hw : w32 size = size := Nat.mod_eq_of_lt h2
  have ht : Alloc.alloc E fuel m' (Own.fresh p).a size = .timeout := by
    refine alloc_start e5 e3 (by rw [hcap, hpos, Nat.zero_add, hw]; exact h1) ?_
    have h3 : chunk * delta ≤ chunk * 1 := Nat.mul_le_mul_left _ hd
    have h4 : w32 (chunk * delta) ≤ chunk * delta := Nat.mod_le ..
    rw [hcap]
    exact growTo_stuck hd fuel _ (by omega)
  simp only [Alloc.run, Alloc.step]
  rw [e1]
  simp only [Res.ok_bind, Res.pure_eq, List.getElem?_cons_zero]
  have ht' : Alloc.alloc E fuel m' p size = .timeout := ht
  rw [ht']
  rfl

/-- With a first chunk of 0 bytes, no request ever returns. -/
theorem C57_false_chunk {E : Env} (hE : Sound E) (hP : Plenty E) (hc : (chunk : Nat) = 0)
    {size : Nat} (h1 : 0 < size) (h2 : size < 4294967296) (fuel : Nat) :
    Alloc.run E fuel World.init [.new, .alloc 0 size] = .timeout := by
  obtain ⟨p, hp⟩ := Option.isSome_iff_exists.1 (hP World.init.m.calls World.init.m.live (40 + chunk))
  obtain ⟨m', e1, e2, e3, e4, e5, e6⟩ := newAllocator_fits (by omega) hE WInv.init.sep hp
  have hcap : (Own.fresh p).last.cap = 0 := hc
  have hpos : (Own.fresh p).last.pos = 0 := rfl
  have hw : w32 size = size := Nat.mod_eq_of_lt h2
  have ht : Alloc.alloc E fuel m' (Own.fresh p).a size = .timeout := by
    refine alloc_start e5 e3 (by rw [hcap, hpos, Nat.zero_add, hw]; exact h1) ?_
    rw [hcap, Nat.zero_mul]
    exact growTo_zero h1 fuel
  simp only [Alloc.run, Alloc.step]
  rw [e1]
  simp only [Res.ok_bind, Res.pure_eq, List.getElem?_cons_zero]
  have ht' : Alloc.alloc E fuel m' p size = .timeout := ht
  rw [ht']
  rfl

end

theorem appendChar_none {st : St} {z : ZStr} {b : Buf} (hA : st.allocs z.a = true) (hs : z.sizeOf = 0) (hp : z.pos = 0)
    (hh : z.hdr = z.data) (hb : st.bufs z.data = some b) (c : Byte) : ZJ.appendChar z c st = .ub .oob := by
  have h1 : ZJ.touchStr z st = .ok ((), st) := by simp [ZJ.touchStr, hh, hb]
  refine (M.bind_ok h1).trans ?_
  refine (M.bind_ok (a := { z with data := st.nb, sizeOf := 0 }) (st' := st.addB z.a 0 []) ?_).trans ?_
  · rw [if_pos (by omega)]
    refine (M.bind_ok (a := st.cfg) (st' := st) rfl).trans ?_
    refine (M.bind_ok (a := []) (st' := st) (by simp [hb, hp])).trans ?_
    rw [hs, Nat.zero_mul]
    exact (M.bind_ok (newBuf_run (sz := 0) (d := []) hA (Nat.le_refl _))).trans rfl
  · refine M.bind_ub ?_
    simp [pokeStr, St.addB]

/-- Settings that meet the hypotheses: a factor of 1. -/
example : @Alloc.run ⟨64, 1⟩ bump 50 World.init [.new, .alloc 0 65] = .timeout :=
  @C57_false_delta ⟨64, 1⟩ bump bump_sound bump_plenty (by decide) (by decide) 65 (by decide) (by decide) 50

/-- With output strings that start with 0 bytes, the first character is written behind the end
of the block, -/
theorem C57_false_char {st : St} {A : Nat} (hA : st.allocs A = true) (c : Byte) :
    (do let z ← ZJ.newString A 0; ZJ.appendChar z c : M ZStr) st = .ub .oob := by
  refine (M.bind_ok (M.bind_ok (request_run hA))).trans ?_
  exact appendChar_none (b := ⟨some A, 0, st.slack st.nb, []⟩) hA rfl rfl rfl (by simp) c

/-- and the first text never gets there, for every factor: the loop of zzzjson.h:582 has no
end. -/
theorem C57_false_text {d need : Nat} (h : 0 < need) : ∀ fuel, growLoop d fuel (0 * d) need = .timeout
  | 0 => rfl
  | fuel + 1 => by
    unfold growLoop
    rw [if_pos (by omega), Nat.zero_mul]
    exact C57_false_text h fuel

end ZJ
