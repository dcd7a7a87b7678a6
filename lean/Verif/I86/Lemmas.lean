import Verif.I86.Spec
/-!
# Facts about the processor specification

Memory laws, and closed forms of the repeated string instructions.
-/
namespace I86
namespace Cpu

theorem lin_lt (seg off : Word) : lin seg off < 2 ^ 20 := Nat.mod_lt _ (Nat.two_pow_pos 20)

theorem lin_inj {seg a b : Word} (h : lin seg a = lin seg b) : a = b := by
  simp only [lin] at h
  have := a.isLt
  have := b.isLt
  apply BitVec.eq_of_toNat_eq
  omega

theorem rd8_wr8_self (c : Cpu) (seg off : Word) (v : Byte) : (c.wr8 seg off v).rd8 seg off = v :=
  Mem.get_set_self _ _ _

theorem rd8_wr8_ne (c : Cpu) {seg off seg' off' : Word} (v : Byte) (h : lin seg off ≠ lin seg' off') :
    (c.wr8 seg off v).rd8 seg' off' = c.rd8 seg' off' :=
  Mem.get_set_ne _ _ (lin_lt _ _) (lin_lt _ _) h

theorem get_wr8_ne (c : Cpu) {seg off : Word} (v : Byte) {a : Nat} (ha : a < 2 ^ 20) (h : a ≠ lin seg off) :
    (c.wr8 seg off v).mem.get a = c.mem.get a :=
  Mem.get_set_ne _ _ (lin_lt _ _) ha (Ne.symm h)

theorem add_one_ne (x : Word) : x ≠ x + 1 := by
  intro h
  have := congrArg BitVec.toNat h
  rw [BitVec.toNat_add] at this
  have := x.isLt
  simp only [show (1 : Word).toNat = 1 from rfl] at *
  omega

theorem hi_append_lo (v : Word) : (hi v ++ lo v : Word) = v := by
  apply BitVec.eq_of_getLsbD_eq
  intro i hi'
  rw [BitVec.getLsbD_append]
  simp only [lo, hi, BitVec.getLsbD_setWidth, BitVec.getLsbD_extractLsb']
  split
  · simp [*]
  · have : i - 8 < 8 := by omega
    simp [this, show 8 + (i - 8) = i by omega]

theorem lo_append (a b : Byte) : lo (a ++ b : Word) = b := by
  apply BitVec.eq_of_getLsbD_eq
  intro i hi'
  simp only [lo, BitVec.getLsbD_setWidth, BitVec.getLsbD_append, hi', decide_true, Bool.true_and, if_true]

theorem hi_append (a b : Byte) : hi (a ++ b : Word) = a := by
  apply BitVec.eq_of_getLsbD_eq
  intro i hi'
  simp only [hi, BitVec.getLsbD_extractLsb', BitVec.getLsbD_append, hi', decide_true, Bool.true_and]
  rw [if_neg (by omega)]
  congr 1
  omega

theorem rd16_wr16_self (c : Cpu) (seg off v : Word) : (c.wr16 seg off v).rd16 seg off = v := by
  unfold rd16 wr16
  rw [rd8_wr8_self, rd8_wr8_ne, rd8_wr8_self, hi_append_lo]
  intro h
  exact add_one_ne off (lin_inj h).symm

theorem get_wr16_ne (c : Cpu) {seg off : Word} (v : Word) {a : Nat} (ha : a < 2 ^ 20) (h1 : a ≠ lin seg off)
    (h2 : a ≠ lin seg (off + 1)) : (c.wr16 seg off v).mem.get a = c.mem.get a := by
  unfold wr16
  rw [get_wr8_ne _ _ ha h2, get_wr8_ne _ _ ha h1]

/-- Registers after REP MOVSB. -/
theorem movs_regs (n : Nat) (c : Cpu) : c.movs false n =
    { c with si := c.si + BitVec.ofNat 16 n, di := c.di + BitVec.ofNat 16 n, cx := c.cx - BitVec.ofNat 16 n,
             mem := (c.movs false n).mem } := by
  induction n generalizing c with
  | zero => simp [movs]
  | succ n ih =>
    rw [movs, ih]
    simp only [Bool.false_eq_true, if_false, wr8]
    have e : ∀ x : Word, x + 1 + BitVec.ofNat 16 n = x + BitVec.ofNat 16 (n + 1) := by
      intro x
      rw [BitVec.add_assoc, BitVec.add_comm 1]
      congr 1
      apply BitVec.eq_of_toNat_eq
      simp
    have e' : ∀ x : Word, x - 1 - BitVec.ofNat 16 n = x - BitVec.ofNat 16 (n + 1) := by
      intro x
      rw [BitVec.sub_sub, BitVec.add_comm 1]
      congr 1
      apply BitVec.eq_of_toNat_eq
      simp
    rw [e, e, e']

/-- Registers after REP STOSB (without the count). -/
theorem stosN_regs (n : Nat) (c : Cpu) : c.stosN false n =
    { c with di := c.di + BitVec.ofNat 16 n, mem := (c.stosN false n).mem } := by
  induction n generalizing c with
  | zero => simp [stosN]
  | succ n ih =>
    rw [stosN, ih]
    simp only [Bool.false_eq_true, if_false, wr8]
    have e : ∀ x : Word, x + 1 + BitVec.ofNat 16 n = x + BitVec.ofNat 16 (n + 1) := by
      intro x
      rw [BitVec.add_assoc, BitVec.add_comm 1]
      congr 1
      apply BitVec.eq_of_toNat_eq
      simp
    rw [e]

theorem ofNat_succ_add (x : Word) (n : Nat) : x + 1 + BitVec.ofNat 16 n = x + BitVec.ofNat 16 (n + 1) := by
  rw [BitVec.add_assoc, BitVec.add_comm 1]
  congr 1
  apply BitVec.eq_of_toNat_eq
  simp

theorem ofNat_zero_add (x : Word) : x + BitVec.ofNat 16 0 = x := by simp

theorem add_ofNat_inj {x : Word} {i j : Nat} (hi : i < 2 ^ 16) (hj : j < 2 ^ 16)
    (h : x + BitVec.ofNat 16 i = x + BitVec.ofNat 16 j) : i = j := by
  have := congrArg BitVec.toNat h
  simp only [BitVec.toNat_add, BitVec.toNat_ofNat] at this
  have := x.isLt
  omega

/-- Memory outside the destination of REP MOVSB. -/
theorem movs_frame (n : Nat) (c : Cpu) {a : Nat} (ha : a < 2 ^ 20)
    (h : ∀ i < n, a ≠ lin c.es (c.di + BitVec.ofNat 16 i)) : (c.movs false n).mem.get a = c.mem.get a := by
  induction n generalizing c with
  | zero => rfl
  | succ n ih =>
    rw [movs, ih]
    · exact get_wr8_ne _ _ ha (by simpa using h 0 (by omega))
    · intro i hi
      have := h (i + 1) (by omega)
      rw [← ofNat_succ_add] at this
      exact this

/-- REP MOVSB with non-overlapping operands copies. -/
theorem movs_copy (n : Nat) (c : Cpu) (hn : n ≤ 2 ^ 16)
    (hdis : ∀ i < n, ∀ j < n, lin c.ds (c.si + BitVec.ofNat 16 i) ≠ lin c.es (c.di + BitVec.ofNat 16 j))
    {i : Nat} (hi : i < n) :
    (c.movs false n).mem.get (lin c.es (c.di + BitVec.ofNat 16 i)) = c.rd8 c.ds (c.si + BitVec.ofNat 16 i) := by
  induction n generalizing c i with
  | zero => omega
  | succ n ih =>
    rw [movs]
    simp only [Bool.false_eq_true, if_false]
    cases i with
    | zero =>
      rw [movs_frame]
      · rw [ofNat_zero_add, ofNat_zero_add]
        exact rd8_wr8_self _ _ _ _
      · exact lin_lt _ _
      · intro i hi' h
        have := lin_inj h
        change c.di + BitVec.ofNat 16 0 = c.di + 1 + BitVec.ofNat 16 i at this
        rw [ofNat_succ_add] at this
        have := add_ofNat_inj (by omega) (by omega) this
        omega
    | succ i =>
      have := ih { c.wr8 c.es c.di (c.rd8 c.ds c.si) with si := c.si + 1, di := c.di + 1, cx := c.cx - 1 } (by omega) (by
        intro i hi j hj
        have := hdis (i + 1) (by omega) (j + 1) (by omega)
        rw [← ofNat_succ_add, ← ofNat_succ_add] at this
        exact this) (i := i) (by omega)
      rw [← ofNat_succ_add, ← ofNat_succ_add]
      refine this.trans ?_
      apply rd8_wr8_ne
      have := hdis (i + 1) (by omega) 0 (by omega)
      rw [← ofNat_succ_add, ofNat_zero_add] at this
      exact Ne.symm this

/-- Memory outside the destination of REP STOSB. -/
theorem stosN_frame (n : Nat) (c : Cpu) {a : Nat} (ha : a < 2 ^ 20)
    (h : ∀ i < n, a ≠ lin c.es (c.di + BitVec.ofNat 16 i)) : (c.stosN false n).mem.get a = c.mem.get a := by
  induction n generalizing c with
  | zero => rfl
  | succ n ih =>
    rw [stosN, ih]
    · exact get_wr8_ne _ _ ha (by simpa using h 0 (by omega))
    · intro i hi
      have := h (i + 1) (by omega)
      rw [← ofNat_succ_add] at this
      exact this

/-- REP STOSB fills. -/
theorem stosN_fill (n : Nat) (c : Cpu) (hn : n ≤ 2 ^ 16) {i : Nat} (hi : i < n) :
    (c.stosN false n).mem.get (lin c.es (c.di + BitVec.ofNat 16 i)) = lo c.ax := by
  induction n generalizing c i with
  | zero => omega
  | succ n ih =>
    rw [stosN]
    simp only [Bool.false_eq_true, if_false]
    cases i with
    | zero =>
      rw [stosN_frame]
      · rw [ofNat_zero_add]
        exact rd8_wr8_self _ _ _ _
      · exact lin_lt _ _
      · intro i hi' h
        have := lin_inj h
        change c.di + BitVec.ofNat 16 0 = c.di + 1 + BitVec.ofNat 16 i at this
        rw [ofNat_succ_add] at this
        have := add_ofNat_inj (by omega) (by omega) this
        omega
    | succ i =>
      have := ih { c.wr8 c.es c.di (lo c.ax) with di := c.di + 1 } (by omega) (i := i) (by omega)
      rw [← ofNat_succ_add]
      exact this

/-- One MOVSW is two MOVSB (with the count of one) when they do not overlap. -/
theorem movs_word (n : Nat) (c : Cpu) 
    (hdis : ∀ i < 2 * n, ∀ j < 2 * n, lin c.ds (c.si + BitVec.ofNat 16 i) ≠ lin c.es (c.di + BitVec.ofNat 16 j)) :
    c.movs true n = { c.movs false (2 * n) with cx := c.cx - BitVec.ofNat 16 n } := by
  induction n generalizing c with
  | zero => simp [movs]
  | succ n ih =>
    rw [show 2 * (n + 1) = 2 * n + 1 + 1 by omega, movs, movs, movs]
    simp only [Bool.false_eq_true, if_false, if_true]
    have h10 : lin c.es c.di ≠ lin c.ds (c.si + 1) := by
      have := hdis 1 (by omega) 0 (by omega)
      rw [ofNat_zero_add] at this
      exact Ne.symm this
    have hst : ({ c.wr16 c.es c.di (c.rd16 c.ds c.si) with
          si := c.si + 2, di := c.di + 2, cx := c.cx - 1 } : Cpu) =
        { (c.wr8 c.es c.di (c.rd8 c.ds c.si)).wr8 c.es (c.di + 1)
            ((c.wr8 c.es c.di (c.rd8 c.ds c.si)).rd8 c.ds (c.si + 1)) with
          si := c.si + 1 + 1, di := c.di + 1 + 1, cx := c.cx - 1 } := by
      rw [rd8_wr8_ne _ _ h10, BitVec.add_assoc, BitVec.add_assoc]
      unfold wr16 rd16
      rw [lo_append, hi_append]
      rfl
    have hcx : ∀ (d : Cpu) (m : Nat) (x : Word), ({ ({ d with cx := x } : Cpu).movs false m with cx := 0 } : Cpu) =
        { d.movs false m with cx := 0 } := by
      intro d m x
      induction m generalizing d x with
      | zero => rfl
      | succ m ihm =>
        rw [movs, movs]
        exact (ihm { (if false = true then d.wr16 d.es d.di (d.rd16 d.ds d.si) else d.wr8 d.es d.di (d.rd8 d.ds d.si)) with
          si := d.si + 1, di := d.di + 1, cx := d.cx - 1 } (x - 1))
    change movs true n { c.wr16 c.es c.di (c.rd16 c.ds c.si) with si := c.si + 2, di := c.di + 2, cx := c.cx - 1 } = _
    rw [hst, ih _ (by
      intro i hi j hj
      have := hdis (i + 2) (by omega) (j + 2) (by omega)
      rw [show i + 2 = i + 1 + 1 by omega, show j + 2 = j + 1 + 1 by omega, ← ofNat_succ_add, ← ofNat_succ_add,
        ← ofNat_succ_add, ← ofNat_succ_add] at this
      exact this)]
    have hsub : c.cx - 1 - BitVec.ofNat 16 n = c.cx - BitVec.ofNat 16 (n + 1) := by
      rw [BitVec.sub_sub, BitVec.add_comm 1]
      congr 1
      apply BitVec.eq_of_toNat_eq
      simp
    have hfin : ∀ (d : Cpu) (m : Nat) (x y : Word), ({ ({ d with cx := x } : Cpu).movs false m with cx := y } : Cpu) =
        { d.movs false m with cx := y } := by
      intro d m x y
      have := hcx d m x
      exact congrArg (fun e : Cpu => { e with cx := y }) this
    refine (hfin { (c.wr8 c.es c.di (c.rd8 c.ds c.si)).wr8 c.es (c.di + 1)
            ((c.wr8 c.es c.di (c.rd8 c.ds c.si)).rd8 c.ds (c.si + 1)) with
          si := c.si + 1 + 1, di := c.di + 1 + 1, cx := c.cx - 1 - 1 } (2 * n) (c.cx - 1) (c.cx - 1 - BitVec.ofNat 16 n)).trans ?_
    rw [hsub]
    rfl

/-- Registers after REP STOSW. -/
theorem stosN_word_regs (n : Nat) (c : Cpu) : c.stosN true n =
    { c with di := c.di + BitVec.ofNat 16 (2 * n), mem := (c.stosN true n).mem } := by
  induction n generalizing c with
  | zero => simp [stosN]
  | succ n ih =>
    rw [stosN, ih]
    simp only [if_true, wr16, wr8]
    rw [show 2 * (n + 1) = 2 * n + 1 + 1 by omega, ← ofNat_succ_add, ← ofNat_succ_add, BitVec.add_assoc c.di 1 1]
    rfl

/-- Memory outside the destination of REP STOSW. -/
theorem stosN_word_frame (n : Nat) (c : Cpu) {a : Nat} (ha : a < 2 ^ 20)
    (h : ∀ i < 2 * n, a ≠ lin c.es (c.di + BitVec.ofNat 16 i)) : (c.stosN true n).mem.get a = c.mem.get a := by
  induction n generalizing c with
  | zero => rfl
  | succ n ih =>
    rw [stosN, ih]
    · exact get_wr16_ne _ _ ha (by simpa using h 0 (by omega)) (by have := h 1 (by omega); exact this)
    · intro i hi
      have := h (i + 1 + 1) (by omega)
      rw [← ofNat_succ_add, ← ofNat_succ_add, BitVec.add_assoc c.di 1 1] at this
      exact this

/-- REP STOSW fills with the low and the high byte of AX. -/
theorem stosN_word_fill (n : Nat) (c : Cpu) (hn : 2 * n ≤ 2 ^ 16) {i : Nat} (hin : i < 2 * n) :
    (c.stosN true n).mem.get (lin c.es (c.di + BitVec.ofNat 16 i)) = if i % 2 = 0 then lo c.ax else hi c.ax := by
  induction n generalizing c i with
  | zero => omega
  | succ n ih =>
    rw [stosN]
    simp only [if_true]
    have hfr : ∀ k < 2, (stosN true n { c.wr16 c.es c.di c.ax with di := c.di + 2 }).mem.get
        (lin c.es (c.di + BitVec.ofNat 16 k)) = (c.wr16 c.es c.di c.ax).mem.get (lin c.es (c.di + BitVec.ofNat 16 k)) := by
      intro k hk
      rw [stosN_word_frame]
      · exact lin_lt _ _
      · intro j hj h
        have := lin_inj h
        change c.di + BitVec.ofNat 16 k = c.di + (1 + 1) + BitVec.ofNat 16 j at this
        rw [← BitVec.add_assoc, ofNat_succ_add, ofNat_succ_add] at this
        have := add_ofNat_inj (by omega) (by omega) this
        omega
    match i with
    | 0 =>
      rw [if_pos (by decide)]
      refine (hfr 0 (by omega)).trans ?_
      rw [ofNat_zero_add]
      unfold wr16
      rw [get_wr8_ne _ _ (lin_lt _ _)]
      · exact rd8_wr8_self _ _ _ _
      · intro h; exact add_one_ne _ (lin_inj h)
    | 1 =>
      rw [if_neg (by decide)]
      refine (hfr 1 (by omega)).trans ?_
      exact rd8_wr8_self _ _ _ _
    | i + 2 =>
      have := ih { c.wr16 c.es c.di c.ax with di := c.di + 2 } (by omega) (i := i) (by omega)
      rw [show (i + 2) % 2 = i % 2 by omega, show i + 2 = i + 1 + 1 by omega, ← ofNat_succ_add, ← ofNat_succ_add,
        BitVec.add_assoc c.di 1 1]
      exact this

/-- Index of the first mismatch, or `n`. -/
def firstDiff (p : Nat → Bool) : Nat → Nat
  | 0 => 0
  | n + 1 => if p 0 then 1 + firstDiff (fun i => p (i + 1)) n else 0

/-- `firstDiff` is the first index below `n` where the predicate fails. -/
theorem firstDiff_spec (p : Nat → Bool) (n : Nat) : firstDiff p n ≤ n ∧ (∀ i < firstDiff p n, p i = true) ∧
    (firstDiff p n < n → p (firstDiff p n) = false) := by
  induction n generalizing p with
  | zero => exact ⟨Nat.le_refl _, fun i hi => absurd hi (by simp [firstDiff]), fun h => absurd h (by simp [firstDiff])⟩
  | succ n ih =>
    obtain ⟨h1, h2, h3⟩ := ih (fun i => p (i + 1))
    by_cases h0 : p 0 = true
    · have e : firstDiff p (n + 1) = 1 + firstDiff (fun i => p (i + 1)) n := by simp [firstDiff, h0]
      rw [e]
      refine ⟨by omega, ?_, ?_⟩
      · intro i hi
        cases i with
        | zero => exact h0
        | succ i => exact h2 i (by omega)
      · intro hlt
        rw [Nat.add_comm]
        exact h3 (by omega)
    · have e : firstDiff p (n + 1) = 0 := by simp [firstDiff, h0]
      rw [e]
      exact ⟨by omega, fun i hi => absurd hi (by omega), fun _ => by simpa using h0⟩

/-- REPE CMPSB: with `k` equal leading bytes, `k+1` bytes are consumed if there is a mismatch below `n`, all `n`
otherwise, and ZF tells which. -/
theorem cmpsN_spec (K : Contract) (n : Nat) (c : Cpu) (hn : n ≠ 0) :
    let k := firstDiff (fun i => c.rd8 c.ds (c.si + BitVec.ofNat 16 i) == c.rd8 c.es (c.di + BitVec.ofNat 16 i)) n
    let used := if k < n then k + 1 else n
    let l := c.rd8 c.ds (c.si + BitVec.ofNat 16 (used - 1))
    let r := c.rd8 c.es (c.di + BitVec.ofNat 16 (used - 1))
    c.cmpsN K n = { cmpFlags K l r c with
      si := c.si + BitVec.ofNat 16 used, di := c.di + BitVec.ofNat 16 used, cx := c.cx - BitVec.ofNat 16 used } := by
  induction n generalizing c with
  | zero => exact absurd rfl hn
  | succ n ih =>
    have hone : BitVec.ofNat 16 1 = 1 := rfl
    intro k used l r
    rw [cmpsN]
    by_cases h0 : c.rd8 c.ds c.si = c.rd8 c.es c.di
    · rw [if_pos h0]
      have hk : k = 1 + firstDiff (fun i => c.rd8 c.ds (c.si + BitVec.ofNat 16 (i + 1)) ==
          c.rd8 c.es (c.di + BitVec.ofNat 16 (i + 1))) n := by
        simp [k, firstDiff, h0]
      cases n with
      | zero =>
        have hu : used = 1 := by
          have : ¬ k < 1 := by rw [hk]; simp [firstDiff]
          simp [used, this]
        simp only [hu, l, r, cmpsN]
        simp only [Nat.sub_self, ofNat_zero_add, hone]
      | succ n =>
        have := ih { cmpFlags K (c.rd8 c.ds c.si) (c.rd8 c.es c.di) c with
          si := c.si + 1, di := c.di + 1, cx := c.cx - 1 } (by omega)
        simp only at this
        refine this.trans ?_
        have hmem : ∀ (seg off : Word), ({ cmpFlags K (c.rd8 c.ds c.si) (c.rd8 c.es c.di) c with
          si := c.si + 1, di := c.di + 1, cx := c.cx - 1 } : Cpu).rd8 seg off = c.rd8 seg off := fun _ _ => rfl
        simp only [hmem]
        simp only [cmpFlags, ofNat_succ_add] at *
        generalize firstDiff (fun i => c.rd8 c.ds (c.si + BitVec.ofNat 16 (i + 1)) ==
          c.rd8 c.es (c.di + BitVec.ofNat 16 (i + 1))) (n + 1) = k' at hk ⊢
        have hu : used = (if k' < n + 1 then k' + 1 else n + 1) + 1 := by
          simp only [used, hk]
          split <;> split <;> omega
        have hpos : 0 < (if k' < n + 1 then k' + 1 else n + 1) := by split <;> omega
        have hsub : ∀ m, c.cx - 1 - BitVec.ofNat 16 m = c.cx - BitVec.ofNat 16 (m + 1) := by
          intro m
          rw [BitVec.sub_sub, BitVec.add_comm 1]
          congr 1
          apply BitVec.eq_of_toNat_eq
          simp
        simp only [l, r, hu, hsub]
        generalize (if k' < n + 1 then k' + 1 else n + 1) = u at *
        rw [show u - 1 + 1 = u by omega, show u + 1 - 1 = u by omega]
    · rw [if_neg h0]
      have hk : k = 0 := by simp [k, firstDiff, h0]
      have hu : used = 1 := by simp [used, hk]
      simp only [l, r, hu]
      simp only [Nat.sub_self, ofNat_zero_add, hone]

/-- REPNE SCASB: stops after the first byte equal to AL. -/
theorem scasN_spec (K : Contract) (n : Nat) (c : Cpu) (hn : n ≠ 0) :
    let k := firstDiff (fun i => lo c.ax != c.rd8 c.es (c.di + BitVec.ofNat 16 i)) n
    let used := if k < n then k + 1 else n
    let r := c.rd8 c.es (c.di + BitVec.ofNat 16 (used - 1))
    c.scasN K n = { cmpFlags K (lo c.ax) r c with
      di := c.di + BitVec.ofNat 16 used, cx := c.cx - BitVec.ofNat 16 used } := by
  induction n generalizing c with
  | zero => exact absurd rfl hn
  | succ n ih =>
    have hone : BitVec.ofNat 16 1 = 1 := rfl
    intro k used r
    rw [scasN]
    by_cases h0 : lo c.ax = c.rd8 c.es c.di
    · rw [if_pos h0]
      have hk : k = 0 := by simp [k, firstDiff, h0]
      have hu : used = 1 := by simp [used, hk]
      simp only [r, hu]
      simp only [Nat.sub_self, ofNat_zero_add, hone]
    · rw [if_neg h0]
      have hk : k = 1 + firstDiff (fun i => lo c.ax != c.rd8 c.es (c.di + BitVec.ofNat 16 (i + 1))) n := by
        simp [k, firstDiff, h0]
      cases n with
      | zero =>
        have hu : used = 1 := by
          have : ¬ k < 1 := by rw [hk]; simp [firstDiff]
          simp [used, this]
        simp only [hu, r, scasN]
        simp only [Nat.sub_self, ofNat_zero_add, hone]
      | succ n =>
        have := ih { cmpFlags K (lo c.ax) (c.rd8 c.es c.di) c with di := c.di + 1, cx := c.cx - 1 } (by omega)
        simp only at this
        refine this.trans ?_
        have hmem : ∀ (seg off : Word), ({ cmpFlags K (lo c.ax) (c.rd8 c.es c.di) c with
          di := c.di + 1, cx := c.cx - 1 } : Cpu).rd8 seg off = c.rd8 seg off := fun _ _ => rfl
        simp only [hmem]
        simp only [cmpFlags, ofNat_succ_add] at *
        generalize firstDiff (fun i => lo c.ax != c.rd8 c.es (c.di + BitVec.ofNat 16 (i + 1))) (n + 1) = k' at hk ⊢
        have hu : used = (if k' < n + 1 then k' + 1 else n + 1) + 1 := by
          simp only [used, hk]
          split <;> split <;> omega
        have hpos : 0 < (if k' < n + 1 then k' + 1 else n + 1) := by split <;> omega
        have hsub : ∀ m, c.cx - 1 - BitVec.ofNat 16 m = c.cx - BitVec.ofNat 16 (m + 1) := by
          intro m
          rw [BitVec.sub_sub, BitVec.add_comm 1]
          congr 1
          apply BitVec.eq_of_toNat_eq
          simp
        simp only [r, hu, hsub]
        generalize (if k' < n + 1 then k' + 1 else n + 1) = u at *
        rw [show u - 1 + 1 = u by omega, show u + 1 - 1 = u by omega]

end Cpu
end I86
