/-!
# Memories

A byte memory with `2^n` cells as a perfect binary tree.  It models the host array
`char mem[1024*1024]` of `/repo/sim86.c:49` (with `n = 20`).  A tree rather than a function is used so
that the model can be executed efficiently; `get_set` is the only law proofs use, and two memories
with the same contents are equal (`Mem.ext_get`).
-/

abbrev Byte := BitVec 8

/-- A perfect binary tree of depth `n` with bytes at its leaves. -/
inductive Mem : Nat → Type
  | leaf (b : Byte) : Mem 0
  | node {n : Nat} (l r : Mem n) : Mem (n + 1)

namespace Mem

/-- All cells hold `b`. -/
def const (b : Byte) : (n : Nat) → Mem n
  | 0 => .leaf b
  | n + 1 => let t := const b n; .node t t

/-- Content of cell `a` (only the low `n` bits of `a` matter). -/
def get : {n : Nat} → Mem n → Nat → Byte
  | _, .leaf b, _ => b
  | n + 1, .node l r, a => if a.testBit n then get r a else get l a

/-- Replace the content of cell `a`. -/
def set : {n : Nat} → Mem n → Nat → Byte → Mem n
  | _, .leaf _, _, v => .leaf v
  | n + 1, .node l r, a, v => if a.testBit n then .node l (set r a v) else .node (set l a v) r

theorem get_const (b : Byte) (n a : Nat) : (const b n).get a = b := by
  induction n with
  | zero => rfl
  | succ n ih => simp [const, get, ih]

theorem get_set_self {n : Nat} (m : Mem n) (a : Nat) (v : Byte) : (m.set a v).get a = v := by
  induction m with
  | leaf b => rfl
  | node l r ihl ihr =>
    simp only [set]
    split <;> simp_all [get]

theorem get_set_of_bit {n : Nat} (m : Mem n) {a b : Nat} (v : Byte)
    (h : ∃ i, i < n ∧ a.testBit i ≠ b.testBit i) : (m.set a v).get b = m.get b := by
  induction m with
  | leaf b => obtain ⟨i, hi, _⟩ := h; omega
  | @node n l r ihl ihr =>
    obtain ⟨i, hi, hne⟩ := h
    by_cases hin : i = n
    · subst hin
      simp only [set]
      by_cases ha : a.testBit i <;> by_cases hb : b.testBit i <;> simp_all [get]
    · have hi' : ∃ i, i < n ∧ a.testBit i ≠ b.testBit i := ⟨i, by omega, hne⟩
      simp only [set]
      by_cases ha : a.testBit n <;> by_cases hb : b.testBit n <;> simp [get, ha, hb, ihl hi', ihr hi']

theorem get_set_ne {n : Nat} (m : Mem n) {a b : Nat} (v : Byte) (ha : a < 2 ^ n) (hb : b < 2 ^ n)
    (h : a ≠ b) : (m.set a v).get b = m.get b := by
  apply get_set_of_bit
  apply Classical.byContradiction
  intro hc
  apply h
  apply Nat.eq_of_testBit_eq
  intro i
  apply Classical.byContradiction
  intro hi
  apply hc
  refine ⟨i, ?_, hi⟩
  apply Classical.byContradiction
  intro hn
  have h1 : a.testBit i = false := Nat.testBit_lt_two_pow (Nat.lt_of_lt_of_le ha (Nat.pow_le_pow_right (by omega) (by omega)))
  have h2 : b.testBit i = false := Nat.testBit_lt_two_pow (Nat.lt_of_lt_of_le hb (Nat.pow_le_pow_right (by omega) (by omega)))
  exact hi (h1.trans h2.symm)

theorem get_two_pow_add {k : Nat} (t : Mem k) (n a : Nat) (hk : k ≤ n) :
    get t (2 ^ n + a) = get t a := by
  induction t with
  | leaf b => rfl
  | @node k l r ihl ihr =>
    have hb : (2 ^ n + a).testBit k = a.testBit k := by
      rw [Nat.testBit_two_pow_add_gt (by omega)]
    simp only [get, hb, ihl (Nat.le_of_succ_le hk), ihr (Nat.le_of_succ_le hk)]

theorem ext_get {n : Nat} {m m' : Mem n} (h : ∀ a, a < 2 ^ n → m.get a = m'.get a) : m = m' := by
  induction m with
  | leaf b =>
    cases m' with
    | leaf b' => have := h 0 (by omega); simp only [get] at this; rw [this]
  | @node n l r ihl ihr =>
    cases m' with
    | node l' r' =>
    have hp : (2 : Nat) ^ (n + 1) = 2 ^ n + 2 ^ n := by rw [Nat.pow_succ]; omega
    have hlt : ∀ a, a < 2 ^ n → a.testBit n = false := fun a ha => Nat.testBit_lt_two_pow ha
    have hge : ∀ a, a < 2 ^ n → (2 ^ n + a).testBit n = true := by
      intro a ha
      rw [Nat.testBit_two_pow_add_eq, hlt a ha]; rfl
    have h1 : l = l' := by
      apply ihl
      intro a ha
      have := h a (by omega)
      simpa [get, hlt a ha] using this
    have h2 : r = r' := by
      apply ihr
      intro a ha
      have := h (2 ^ n + a) (by omega)
      simpa [get, hge a ha, get_two_pow_add _ n a (Nat.le_refl n)] using this
    rw [h1, h2]

theorem set_get_self {n : Nat} (m : Mem n) {a : Nat} (ha : a < 2 ^ n) : m.set a (m.get a) = m := by
  apply ext_get
  intro b hb
  by_cases h : b = a
  · subst h; rw [get_set_self]
  · rw [get_set_ne] <;> first | assumption | exact fun e => h e.symm

end Mem
