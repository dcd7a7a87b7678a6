/-!
# Tables

A table with `2^n` entries as a perfect binary tree: an array of a C program in a form that can be executed efficiently and has simple laws.
-/

/-- A perfect binary tree of depth `n`. -/
inductive Tab (α : Type) : Nat → Type
  | leaf (a : α) : Tab α 0
  | node {n : Nat} (l r : Tab α n) : Tab α (n + 1)

namespace Tab

variable {α : Type}

/-- All entries are `a`. -/
def const (a : α) : (n : Nat) → Tab α n
  | 0 => .leaf a
  | n + 1 => let t := const a n; .node t t

/-- The entry number `i` (only the low `n` bits of `i` matter). -/
def get : {n : Nat} → Tab α n → Nat → α
  | _, .leaf a, _ => a
  | n + 1, .node l r, i => if i.testBit n then get r i else get l i

/-- Replace an entry. -/
def set : {n : Nat} → Tab α n → Nat → α → Tab α n
  | _, .leaf _, _, v => .leaf v
  | n + 1, .node l r, i, v => if i.testBit n then .node l (set r i v) else .node (set l i v) r

@[simp] theorem get_const (a : α) (n i : Nat) : (const a n).get i = a := by
  induction n with
  | zero => rfl
  | succ n ih => simp [const, get, ih]

@[simp] theorem get_set_self {n : Nat} (t : Tab α n) (i : Nat) (v : α) : (t.set i v).get i = v := by
  induction t with
  | leaf a => rfl
  | node l r ihl ihr =>
    simp only [set]
    split <;> simp_all [get]

theorem get_set_of_bit {n : Nat} (t : Tab α n) {i j : Nat} (v : α) (h : ∃ k, k < n ∧ i.testBit k ≠ j.testBit k) : (t.set i v).get j = t.get j := by
  induction t with
  | leaf a => obtain ⟨k, hk, _⟩ := h; omega
  | @node n l r ihl ihr =>
    obtain ⟨k, hk, hne⟩ := h
    by_cases hkn : k = n
    · subst hkn
      simp only [set]
      by_cases hi : i.testBit k <;> by_cases hj : j.testBit k <;> simp_all [get]
    · have hk' : ∃ k, k < n ∧ i.testBit k ≠ j.testBit k := ⟨k, by omega, hne⟩
      simp only [set]
      by_cases hi : i.testBit n <;> by_cases hj : j.testBit n <;> simp [get, hi, hj, ihl hk', ihr hk']

theorem get_set_ne {n : Nat} (t : Tab α n) {i j : Nat} (v : α) (hi : i < 2 ^ n) (hj : j < 2 ^ n) (h : i ≠ j) : (t.set i v).get j = t.get j := by
  apply get_set_of_bit
  by_cases hx : ∃ k, k < n ∧ i.testBit k ≠ j.testBit k
  · exact hx
  · exfalso
    apply h
    apply Nat.eq_of_testBit_eq
    intro k
    by_cases hk : k < n
    · by_cases he : i.testBit k = j.testBit k
      · exact he
      · exact absurd ⟨k, hk, he⟩ hx
    · have h2 : 2 ^ n ≤ 2 ^ k := Nat.pow_le_pow_right (by decide) (by omega)
      rw [Nat.testBit_lt_two_pow (by omega), Nat.testBit_lt_two_pow (by omega)]

theorem get_set {n : Nat} (t : Tab α n) {i j : Nat} (v : α) (hi : i < 2 ^ n) (hj : j < 2 ^ n) : (t.set i v).get j = if i = j then v else t.get j := by
  split
  · subst j; exact get_set_self ..
  · exact get_set_ne t v hi hj ‹_›

/-- A change that keeps a component of an entry keeps it everywhere. -/
theorem proj_set {β : Type} (f : α → β) {n : Nat} (t : Tab α n) (i : Nat) (v : α) (h : f v = f (t.get i)) (j : Nat) : f ((t.set i v).get j) = f (t.get j) := by
  induction t with
  | leaf a => exact h
  | @node n l r ihl ihr =>
    simp only [get] at h
    simp only [set]
    by_cases hi : i.testBit n <;> by_cases hj : j.testBit n <;> simp_all [get]

end Tab
