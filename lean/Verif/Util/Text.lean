import Verif.I86.Spec
/-!
# Text as lists of bytes

Shared by the specifications: ASCII text, decimal and hexadecimal numerals (by way of `Nat.toDigits` of Lean's library).
-/
namespace Text
open I86

/-- The bytes of an (ASCII) string. -/
def asc (s : String) : List Byte := s.toList.map fun c => BitVec.ofNat 8 c.toNat

/-- The byte of a character. -/
def chr (c : Char) : Byte := BitVec.ofNat 8 c.toNat

/-- The decimal numeral of a natural number. -/
def decimal (n : Nat) : List Byte := (Nat.toDigits 10 n).map chr

/-- The value of a string of decimal digits. -/
def decVal (l : List Byte) : Nat := l.foldl (fun a b => a * 10 + (b.toNat - 0x30)) 0

/-- A decimal digit. -/
def IsDigit (b : Byte) : Prop := 0x30 ≤ b.toNat ∧ b.toNat ≤ 0x39

instance (b : Byte) : Decidable (IsDigit b) := by unfold IsDigit; infer_instance

theorem chr_digitChar : ∀ k : Fin 10, chr (Nat.digitChar k.val) = BitVec.ofNat 8 (0x30 + k.val) := by decide

theorem decimal_lt {n : Nat} (h : n < 10) : decimal n = [BitVec.ofNat 8 (0x30 + n)] := by
  have := chr_digitChar ⟨n, h⟩
  simp only [decimal, Nat.toDigits_of_lt_base h, List.map_cons, List.map_nil, this]

theorem decimal_ge {n : Nat} (h : 10 ≤ n) : decimal n = decimal (n / 10) ++ [BitVec.ofNat 8 (0x30 + n % 10)] := by
  have := chr_digitChar ⟨n % 10, Nat.mod_lt _ (by decide)⟩
  simp only [decimal, Nat.toDigits_of_base_le (by decide : 1 < 10) h, List.map_append, List.map_cons, List.map_nil, this]

theorem decimal_length {n k : Nat} (hk : 0 < k) : (decimal n).length ≤ k ↔ n < 10 ^ k := by
  simp only [decimal, List.length_map]
  exact Nat.length_toDigits_le_iff (by decide) hk

theorem decimal_ne_nil (n : Nat) : decimal n ≠ [] := by
  simp [decimal, Nat.toDigits_ne_nil]

theorem digit_toNat {k : Nat} (h : k < 10) : (BitVec.ofNat 8 (0x30 + k)).toNat = 0x30 + k := by
  simp only [BitVec.toNat_ofNat]; omega

theorem decimal_isDigit {n : Nat} : ∀ b ∈ decimal n, IsDigit b := by
  induction n using Nat.strongRecOn with
  | _ n ih =>
    intro b hb
    by_cases h : n < 10
    · rw [decimal_lt h, List.mem_singleton] at hb
      subst hb; unfold IsDigit; rw [digit_toNat h]; omega
    · rw [decimal_ge (by omega), List.mem_append, List.mem_singleton] at hb
      rcases hb with hb | hb
      · exact ih (n / 10) (by omega) b hb
      · subst hb; unfold IsDigit; rw [digit_toNat (Nat.mod_lt _ (by decide))]; omega

theorem decVal_append_singleton (l : List Byte) (b : Byte) : decVal (l ++ [b]) = decVal l * 10 + (b.toNat - 0x30) := by
  simp only [decVal, List.foldl_append, List.foldl_cons, List.foldl_nil]

theorem decVal_decimal (n : Nat) : decVal (decimal n) = n := by
  induction n using Nat.strongRecOn with
  | _ n ih =>
    by_cases h : n < 10
    · rw [decimal_lt h]; simp only [decVal, List.foldl_cons, List.foldl_nil, digit_toNat h]; omega
    · rw [decimal_ge (by omega), decVal_append_singleton, ih (n / 10) (by omega), digit_toNat (Nat.mod_lt _ (by decide))]
      omega

/-- A positive number's numeral does not begin with zero. -/
theorem decimal_head {n : Nat} (h : 0 < n) : ∃ b l, decimal n = b :: l ∧ b ≠ 0x30 := by
  induction n using Nat.strongRecOn with
  | _ n ih =>
    by_cases h10 : n < 10
    · refine ⟨_, [], decimal_lt h10, ?_⟩
      intro hc
      have := congrArg BitVec.toNat hc
      rw [digit_toNat h10] at this
      simp at this
      omega
    · obtain ⟨b, l, e, hb⟩ := ih (n / 10) (by omega) (by omega)
      exact ⟨b, l ++ [_], by rw [decimal_ge (by omega), e]; rfl, hb⟩

end Text
