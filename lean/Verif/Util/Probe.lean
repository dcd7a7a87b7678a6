import Mathlib.Data.Fintype.Card
import Mathlib.Data.Int.ModEq
/-!
# Hash tables with linear probing

Lemmas for the identifier tables of the preprocessor and of the compiler: a table of `N` slots that hold the numbers of names.
-/
namespace Probe

variable {α : Type} {N : Nat} {H : α → Nat} {T : Nat → Option Nat} {names : List α}

/-- The `j`-th slot tried from `h`. -/
def pr (N h j : Nat) : Nat := (h + j) % N

theorem pr_zero {h : Nat} (hh : h < N) : pr N h 0 = h := by simp [pr, Nat.mod_eq_of_lt hh]

theorem pr_succ (h j : Nat) : (pr N h j + 1) % N = pr N h (j + 1) := by simp [pr, Nat.add_assoc]

theorem pr_lt (hN : 0 < N) (h j : Nat) : pr N h j < N := Nat.mod_lt _ hN

theorem pr_inj {h i j : Nat} (hi : i < N) (hj : j < N) (e : pr N h i = pr N h j) : i = j := by
  simp only [pr] at e
  by_contra hne
  have := Nat.ModEq.add_left_cancel' h (show (h + i) ≡ (h + j) [MOD N] from e)
  exact hne (Nat.ModEq.eq_of_lt_of_lt this hi hj)

/-- The occupied slots are numbered injectively, and each number can be found from the hash of its name. -/
structure Inv (N : Nat) (H : α → Nat) (T : Nat → Option Nat) (names : List α) : Prop where
  len : names.length < N
  lt : ∀ a id, T a = some id → id < names.length
  inj : ∀ a b id, T a = some id → T b = some id → a = b
  find : ∀ id s, names[id]? = some s → ∃ j < N, T (pr N (H s) j) = some id ∧ ∀ k < j, T (pr N (H s) k) ≠ none

theorem inv_empty (h : 0 < N) : Inv N H (fun _ => none) [] :=
  ⟨by simpa using h, by simp, by simp, by simp⟩

/-- There is a free slot. -/
theorem exists_free (ht : Inv N H T names) (h : Nat) : ∃ j < N, T (pr N h j) = none := by
  by_contra hc
  have hs : ∀ j : Fin N, ∃ id : Fin names.length, T (pr N h j) = some id.val := by
    intro j
    have : T (pr N h j) ≠ none := fun e => hc ⟨j, j.2, e⟩
    obtain ⟨id, hid⟩ := Option.ne_none_iff_exists'.mp this
    exact ⟨⟨id, ht.lt _ _ hid⟩, hid⟩
  choose f hf using hs
  have hinj : Function.Injective f := by
    intro i j e
    have h1 := hf i
    have h2 := hf j
    rw [← e] at h2
    exact Fin.ext (pr_inj i.2 j.2 (ht.inj _ _ _ h1 h2))
  have := Fintype.card_le_of_injective f hinj
  simp only [Fintype.card_fin] at this
  have := ht.len
  omega

/-- The first free slot. -/
theorem exists_first (ht : Inv N H T names) (h : Nat) : ∃ j < N, T (pr N h j) = none ∧ ∀ k < j, T (pr N h k) ≠ none := by
  have := exists_free ht h
  classical
  refine ⟨Nat.find this, (Nat.find_spec this).1, (Nat.find_spec this).2, ?_⟩
  intro k hk he
  exact Nat.find_min this hk ⟨lt_trans hk (Nat.find_spec this).1, he⟩

/-- A new name at the first free slot. -/
theorem add (ht : Inv N H T names) (s : α) (hl : names.length + 1 < N) {j : Nat} (hj : j < N) (hf : T (pr N (H s) j) = none)
    (hb : ∀ k < j, T (pr N (H s) k) ≠ none) :
    Inv N H (fun a => if a = pr N (H s) j then some names.length else T a) (names ++ [s]) where
  len := by simpa using hl
  lt := by
    intro a id h
    simp only [List.length_append, List.length_cons, List.length_nil]
    split at h
    · cases h; omega
    · have := ht.lt a id h; omega
  inj := by
    intro a b id ha hb'

    split at ha <;> split at hb'
    · next h1 h2 => rw [h1, h2]
    · cases ha; exact absurd (ht.lt _ _ hb') (by omega)
    · cases hb'; exact absurd (ht.lt _ _ ha) (by omega)
    · exact ht.inj a b id ha hb'
  find := by
    intro id t h
    by_cases hid : id < names.length
    · rw [List.getElem?_append_left hid] at h
      obtain ⟨i, hi, h1, h2⟩ := ht.find id t h
      refine ⟨i, hi, ?_, ?_⟩
      · by_cases e : pr N (H t) i = pr N (H s) j
        · rw [e, hf] at h1; cases h1
        · rw [if_neg e]; exact h1
      · intro k hk
        split
        · exact Option.some_ne_none _
        · exact h2 k hk
    · have hid2 : id = names.length := by
        have := (List.getElem?_eq_some_iff.mp h).1
        simp only [List.length_append, List.length_cons, List.length_nil] at this
        omega
      subst hid2
      have : t = s := by simpa using h.symm
      subst this
      refine ⟨j, hj, by rw [if_pos rfl], ?_⟩
      intro k hk
      split
      · exact Option.some_ne_none _
      · exact hb k hk

/-- Where the search for a name ends. -/
theorem search (ht : Inv N H T names) (hnd : names.Nodup) (s : α) :
    ∃ j < N, (∀ k < j, ∃ i t, T (pr N (H s) k) = some i ∧ names[i]? = some t ∧ t ≠ s) ∧
      ((T (pr N (H s) j) = none ∧ s ∉ names) ∨ ∃ i, T (pr N (H s) j) = some i ∧ names[i]? = some s) := by
  have nm : ∀ {a i}, T a = some i → ∃ t, names[i]? = some t := fun h => ⟨_, List.getElem?_eq_getElem (ht.lt _ _ h)⟩
  by_cases hs : s ∈ names
  · obtain ⟨id, hid⟩ := List.getElem?_of_mem hs
    obtain ⟨j, hj, h1, h2⟩ := ht.find id s hid
    refine ⟨j, hj, ?_, .inr ⟨id, h1, hid⟩⟩
    intro k hk
    obtain ⟨i, hi⟩ := Option.ne_none_iff_exists'.mp (h2 k hk)
    obtain ⟨t, ht2⟩ := nm hi
    refine ⟨i, t, hi, ht2, ?_⟩
    rintro rfl
    have : i = id := by
      have h3 := List.getElem?_eq_some_iff.mp ht2
      have h4 := List.getElem?_eq_some_iff.mp hid
      obtain ⟨p, hp⟩ := h3
      obtain ⟨q, hq⟩ := h4
      exact (List.Nodup.getElem_inj_iff hnd).mp (hp.trans hq.symm)
    subst this
    have := pr_inj (by omega) hj (ht.inj _ _ _ hi h1)
    omega
  · obtain ⟨j, hj, h1, h2⟩ := exists_first ht (H s)
    refine ⟨j, hj, ?_, .inl ⟨h1, hs⟩⟩
    intro k hk
    obtain ⟨i, hi⟩ := Option.ne_none_iff_exists'.mp (h2 k hk)
    obtain ⟨t, ht2⟩ := nm hi
    exact ⟨i, t, hi, ht2, fun e => hs (e ▸ List.mem_of_getElem? ht2)⟩

end Probe
