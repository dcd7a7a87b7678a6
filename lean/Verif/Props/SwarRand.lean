import Verif.Swar.Rand
/-!
# C61: when the terrain is finished

The difference of the seed to the fixed point F27Fh is shifted right as long as the results are 7.
-/
namespace Props
open I86 Swar

/-- The seeds for which the terrain is never finished. -/
def stuckSeeds : List Word := [0xF27F, 0xE4FE, 0xC9FC, 0xDF7D, 0x93F8, 0x8579, 0xBEFA, 0xA87B]

namespace SwarRand

theorem bits_b40 : ∀ i : Fin 16, (0xb40 : Word).getLsbD i.val = (i.val == 6 || i.val == 8 || i.val == 9 || i.val == 11) := by decide

theorem and_one (s : Word) : (s &&& 1 ≠ 0) ↔ s.getLsbD 0 = true := by
  have : ∀ i : Fin 16, (1 : Word).getLsbD i.val = (i.val == 0) := by decide
  constructor
  · intro h
    cases e : s.getLsbD 0 with
    | true => rfl
    | false =>
      refine absurd ?_ h
      apply BitVec.eq_of_getLsbD_eq
      intro i hi
      rw [BitVec.getLsbD_and, this ⟨i, hi⟩]
      by_cases h0 : i = 0
      · subst h0; rw [e]; rfl
      · simp [h0]
  · intro h e
    have := congrArg (fun x => x.getLsbD 0) e
    simp only [BitVec.getLsbD_and, h] at this
    revert this
    decide

/-- The bits of the next seed. -/
theorem next_bit (s : Word) (i : Nat) (hi : i < 16) :
    (rand s).1.getLsbD i = ((s.getLsbD (if i = 15 then 15 else i + 1)) ^^ (s.getLsbD 0 && (i == 6 || i == 8 || i == 9 || i == 11))) := by
  have sh : (s.sshiftRight 1).getLsbD i = s.getLsbD (if i = 15 then 15 else i + 1) := by
    rw [BitVec.getLsbD_sshiftRight]
    by_cases h : i = 15
    · subst h; simp [BitVec.msb_eq_getLsbD_last]
    · rw [if_neg h, if_pos (by omega)]
      simp [show ¬ 16 ≤ i by omega, Nat.add_comm]
  have hb := bits_b40 ⟨i, hi⟩
  dsimp only at hb
  unfold rand
  simp only
  by_cases h : s &&& 1 ≠ 0
  · rw [if_pos h, BitVec.getLsbD_xor, sh, hb, (and_one s).mp h, Bool.true_and]
  · have h0 : s.getLsbD 0 = false := by
      cases e : s.getLsbD 0 with
      | false => rfl
      | true => exact absurd ((and_one s).mpr e) h
    rw [if_neg h, sh, h0, Bool.false_and, Bool.xor_false]

/-- A result of 7 means that the three low bits of the new seed are set. -/
theorem seven (s : Word) (h : (rand s).2 &&& 7 = 7) : ∀ i < 3, (rand s).1.getLsbD i = true := by
  intro i hi
  have e : (rand s).2 = (rand s).1 &&& 0x7fff := rfl
  have := congrArg (fun x => x.getLsbD i) h
  rw [e] at this
  simp only [BitVec.getLsbD_and] at this
  have hi' : i = 0 ∨ i = 1 ∨ i = 2 := by omega
  cases hb : (rand s).1.getLsbD i with
  | true => rfl
  | false =>
    rw [hb] at this
    rcases hi' with rfl | rfl | rfl <;> revert this <;> decide

theorem bits_fix : ∀ i : Fin 16, (0xF27F : Word).getLsbD i.val = !(i.val == 7 || i.val == 8 || i.val == 10 || i.val == 11) := by decide

/-- `n` results of 7 after a seed with low bit 1 determine its bits up to `n + 2`. -/
theorem run_bits (n : Nat) (s : Word) (h0 : ∀ i < 3, s.getLsbD i = true)
    (h : ∀ k < n, (rand (k.repeat (fun s => (rand s).1) s)).2 &&& 7 = 7) :
    ∀ i < n + 3, i < 16 → s.getLsbD i = (0xF27F : Word).getLsbD i := by
  induction n generalizing s with
  | zero =>
    intro i hi _
    rw [h0 i hi, bits_fix ⟨i, by omega⟩]
    have : i = 0 ∨ i = 1 ∨ i = 2 := by omega
    rcases this with rfl | rfl | rfl <;> rfl
  | succ n ih =>
    have rep : ∀ k : Nat, (k + 1).repeat (fun s => (rand s).1) s = k.repeat (fun s => (rand s).1) (rand s).1 := by
      intro k
      induction k with
      | zero => rfl
      | succ k ihk => rw [Nat.repeat, ihk]; rfl
    have h1 := ih (rand s).1 (seven s (h 0 (by omega))) fun k hk => by rw [← rep]; exact h (k + 1) (by omega)
    intro i hi hi16
    cases i with
    | zero => rw [h0 0 (by omega)]; decide
    | succ i =>
      have := h1 i (by omega) (by omega)
      rw [next_bit s i (by omega), if_neg (by omega), h0 0 (by omega), Bool.true_and, bits_fix ⟨i, by omega⟩] at this
      rw [bits_fix ⟨i + 1, hi16⟩]
      have hs : s.getLsbD (i + 1) = ((i == 6 || i == 8 || i == 9 || i == 11) ^^ !(i == 7 || i == 8 || i == 10 || i == 11)) := by
        rw [← this, Bool.xor_comm, Bool.xor_assoc, Bool.xor_self, Bool.xor_false]
      rw [hs]
      have dec : ∀ j : Fin 15, ((j.val == 6 || j.val == 8 || j.val == 9 || j.val == 11) ^^ !(j.val == 7 || j.val == 8 || j.val == 10 || j.val == 11)) =
          !(j.val + 1 == 7 || j.val + 1 == 8 || j.val + 1 == 10 || j.val + 1 == 11) := by decide
      exact dec ⟨i, by omega⟩

/-- The two seeds before a seed. -/
theorem before (s t : Word) (h : (rand s).1 = t) : (s = t <<< 1 ∨ s = (t ^^^ 0xb40) <<< 1 ||| 1) ∧ t.getLsbD 15 = t.getLsbD 14 := by
  have hb : ∀ i < 16, t.getLsbD i = ((s.getLsbD (if i = 15 then 15 else i + 1)) ^^ (s.getLsbD 0 && (i == 6 || i == 8 || i == 9 || i == 11))) :=
    fun i hi => by rw [← h]; exact next_bit s i hi
  constructor
  · cases h0 : s.getLsbD 0 with
    | false =>
      left
      apply BitVec.eq_of_getLsbD_eq
      intro i hi
      rw [BitVec.getLsbD_shiftLeft]
      cases i with
      | zero => rw [h0]; simp
      | succ i =>
        have := hb i (by omega)
        rw [if_neg (by omega), h0, Bool.false_and, Bool.xor_false] at this
        simp [this, hi]
    | true =>
      right
      apply BitVec.eq_of_getLsbD_eq
      intro i hi
      have one : ∀ i : Fin 16, (1 : Word).getLsbD i.val = (i.val == 0) := by decide
      rw [BitVec.getLsbD_or, BitVec.getLsbD_shiftLeft, one ⟨i, hi⟩]
      cases i with
      | zero => rw [h0]; simp
      | succ i =>
        have := hb i (by omega)
        rw [if_neg (by omega), h0, Bool.true_and] at this
        have b := bits_b40 ⟨i, by omega⟩
        dsimp only at b
        rw [show i + 1 - 1 = i from rfl, BitVec.getLsbD_xor, b, this, Bool.xor_assoc, Bool.xor_self, Bool.xor_false]
        simp [hi]
  · rw [hb 15 (by omega), hb 14 (by omega)]
    simp

end SwarRand
open SwarRand

/-- Of 13 calls of `Rand` one gives something else than 7 modulo 8, unless the seed is one of two. -/
theorem C61_rand_ends (s : Word) (h1 : s ≠ 0xF27F) (h2 : s ≠ 0xE4FE) :
    ∃ k < 13, (rand (k.repeat (fun s => (rand s).1) s)).2 &&& 7 ≠ 7 := by
  refine Classical.byContradiction fun hn => ?_
  have h : ∀ k < 13, (rand (k.repeat (fun s => (rand s).1) s)).2 &&& 7 = 7 := fun k hk =>
    Classical.byContradiction fun e => hn ⟨k, hk, e⟩
  have rep : ∀ k : Nat, (k + 1).repeat (fun s => (rand s).1) s = k.repeat (fun s => (rand s).1) (rand s).1 := by
    intro k
    induction k with
    | zero => rfl
    | succ k ihk => rw [Nat.repeat, ihk]; rfl
  have hb := run_bits 12 (rand s).1 (seven s (h 0 (by omega))) fun k hk => by rw [← rep]; exact h (k + 1) (by omega)
  obtain ⟨hp, h15⟩ := before s _ rfl
  have e : (rand s).1 = 0xF27F := by
    apply BitVec.eq_of_getLsbD_eq
    intro i hi
    by_cases h' : i = 15
    · subst h'
      rw [h15, hb 14 (by omega) (by omega)]
      decide
    · exact hb i (by omega) hi
  rw [e] at hp
  rcases hp with hp | hp
  · exact h2 (hp.trans (by decide))
  · exact h1 (hp.trans (by decide))

namespace SwarRand

theorem not_stuck_next (s : Word) (h : s ∉ stuckSeeds) : (rand s).1 ∉ stuckSeeds := by
  intro hm
  obtain ⟨hp, h15⟩ := before s _ rfl
  apply h
  simp only [stuckSeeds, List.mem_cons, List.not_mem_nil, or_false] at hm
  rcases hm with e | e | e | e | e | e | e | e <;> rw [e] at hp h15
  · rcases hp with hp | hp <;> rw [hp] <;> decide
  · rcases hp with hp | hp <;> rw [hp] <;> decide
  · rcases hp with hp | hp <;> rw [hp] <;> decide
  · rcases hp with hp | hp <;> rw [hp] <;> decide
  · exact absurd h15 (by decide)
  · exact absurd h15 (by decide)
  · exact absurd h15 (by decide)
  · exact absurd h15 (by decide)

theorem draw_ok (k : Nat) (s : Word) (h : s ∉ stuckSeeds) (hk : (rand (k.repeat (fun s => (rand s).1) s)).2 &&& 7 ≠ 7)
    (fuel : Nat) (hf : k < fuel) : ∃ s' v, draw fuel s = some (s', v) ∧ s' ∉ stuckSeeds ∧ v.toNat < 7 := by
  induction k generalizing s fuel with
  | zero =>
    obtain ⟨f, rfl⟩ : ∃ f, fuel = f + 1 := ⟨fuel - 1, by omega⟩
    refine ⟨(rand s).1, (rand s).2 &&& 7, ?_, not_stuck_next s h, ?_⟩
    · rw [draw, if_neg (show ¬ (rand s).2 &&& 7 = 7 from hk)]
    · have hk' : (rand s).2 &&& 7 ≠ 7 := hk
      have h1 : ((rand s).2 &&& 7).toNat ≤ 7 := by rw [BitVec.toNat_and]; exact Nat.and_le_right
      have h2 : ((rand s).2 &&& 7).toNat ≠ 7 := fun e => hk' (BitVec.eq_of_toNat_eq e)
      omega
  | succ k ih =>
    obtain ⟨f, rfl⟩ : ∃ f, fuel = f + 1 := ⟨fuel - 1, by omega⟩
    have rep : ∀ k : Nat, (k + 1).repeat (fun s => (rand s).1) s = k.repeat (fun s => (rand s).1) (rand s).1 := by
      intro k
      induction k with
      | zero => rfl
      | succ k ihk => rw [Nat.repeat, ihk]; rfl
    by_cases h7 : (rand s).2 &&& 7 = 7
    · rw [draw, if_pos h7]
      exact ih (rand s).1 (not_stuck_next s h) (by rw [← rep]; exact hk) f (by omega)
    · refine ⟨(rand s).1, (rand s).2 &&& 7, by rw [draw, if_neg h7], not_stuck_next s h, ?_⟩
      have h1 : ((rand s).2 &&& 7).toNat ≤ 7 := by rw [BitVec.toNat_and]; exact Nat.and_le_right
      have h2 : ((rand s).2 &&& 7).toNat ≠ 7 := fun e => h7 (BitVec.eq_of_toNat_eq e)
      omega

theorem draws_ok (n : Nat) (s : Word) (h : s ∉ stuckSeeds) :
    ∃ l, draws 13 n s = some l ∧ l.length = n ∧ ∀ v ∈ l, v.toNat < 7 := by
  induction n generalizing s with
  | zero => exact ⟨[], rfl, rfl, fun v hv => by cases hv⟩
  | succ n ih =>
    obtain ⟨k, hk, e⟩ := C61_rand_ends s (fun e => h (by rw [e]; decide)) (fun e => h (by rw [e]; decide))
    obtain ⟨s', v, d1, d2, d3⟩ := draw_ok k s h e 13 hk
    obtain ⟨l, l1, l2, l3⟩ := ih s' d2
    refine ⟨v :: l, ?_, by rw [List.length_cons, l2], fun x hx => ?_⟩
    · rw [draws, d1]
      simp only
      rw [l1]
      rfl
    · rcases List.mem_cons.mp hx with rfl | hx
      · exact d3
      · exact l3 x hx

theorem draw_fix (fuel : Nat) : draw fuel 0xF27F = none := by
  induction fuel with
  | zero => rfl
  | succ n ih => rw [draw, if_pos (by decide), show (rand 0xF27F).1 = 0xF27F by decide, ih]

theorem draws_stop {fuel : Nat} {s : Word} (n : Nat) (h : draw fuel s = none) : draws fuel (n + 1) s = none := by
  rw [draws, h]

theorem draws_next {fuel : Nat} {s t : Word} (n : Nat) (h7 : (rand s).2 &&& 7 ≠ 7) (ht : (rand s).1 = t) (h : draws fuel n t = none) :
    draws fuel (n + 1) s = none := by
  cases fuel with
  | zero => rfl
  | succ f =>
    rw [draws, draw, if_neg h7]
    simp only
    rw [ht, h]
    rfl

theorem draw_e4fe (fuel : Nat) : draw fuel 0xE4FE = none := by
  cases fuel with
  | zero => rfl
  | succ n => rw [draw, if_pos (by decide), show (rand 0xE4FE).1 = 0xF27F by decide, draw_fix]

theorem stuck_draws (fuel n : Nat) (s : Word) (h : s ∈ stuckSeeds) : draws fuel (n + 3) s = none := by
  have a : ∀ m, draws fuel (m + 1) 0xE4FE = none := fun m => draws_stop m (draw_e4fe fuel)
  have b : ∀ m, draws fuel (m + 2) 0xC9FC = none := fun m => draws_next (t := 0xE4FE) _ (by decide) (by decide) (a m)
  have c : ∀ m, draws fuel (m + 2) 0xDF7D = none := fun m => draws_next (t := 0xE4FE) _ (by decide) (by decide) (a m)
  simp only [stuckSeeds, List.mem_cons, List.not_mem_nil, or_false] at h
  rcases h with rfl | rfl | rfl | rfl | rfl | rfl | rfl | rfl
  · exact draws_stop _ (draw_fix fuel)
  · exact a _
  · exact b (n + 1)
  · exact c (n + 1)
  · exact draws_next (t := 0xC9FC) _ (by decide) (by decide) (b n)
  · exact draws_next (t := 0xC9FC) _ (by decide) (by decide) (b n)
  · exact draws_next (t := 0xDF7D) _ (by decide) (by decide) (c n)
  · exact draws_next (t := 0xDF7D) _ (by decide) (by decide) (c n)

end SwarRand

/-- The terrain of 320 columns is finished exactly if the seed is none of the eight in `stuckSeeds`; it then gets a number
below 7 for each column, after at most 13 calls of `Rand` for each. -/
theorem C61_terrain_ends (seed : Word) :
    ((∃ fuel, (draws fuel 320 seed).isSome) ↔ seed ∉ stuckSeeds) ∧
    (seed ∉ stuckSeeds → ∃ l, draws 13 320 seed = some l ∧ l.length = 320 ∧ ∀ v ∈ l, v.toNat < 7) := by
  refine ⟨⟨fun ⟨fuel, h⟩ hm => ?_, fun h => ?_⟩, draws_ok 320 seed⟩
  · rw [stuck_draws fuel 317 seed hm] at h
    cases h
  · obtain ⟨l, h1, _⟩ := draws_ok 320 seed h
    exact ⟨13, by rw [h1]; rfl⟩

example : ∃ l, draws 13 320 0x1234 = some l ∧ l.length = 320 ∧ ∀ v ∈ l, v.toNat < 7 := (C61_terrain_ends 0x1234).2 (by decide)

end Props
