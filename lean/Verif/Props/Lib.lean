import Verif.Lib.Code
import Verif.I86.Dos
/-!
# Properties of the machine code in `lib.h` (C13, C14, C15, C16)

All theorems are about the specified processor with any `Contract` (real processor and simulator alike).
-/
namespace Props
open I86 I86.Cpu

/-- The `i`-th argument word of the current frame. -/
def arg (c : Cpu) (i : Nat) : Word := c.rd16 c.ss (c.bp + 4 + 2 * BitVec.ofNat 16 i)

theorem arg0 (c : Cpu) : arg c 0 = rdw c.mem c.ss (c.bp + 4) := by
  simp only [arg, rd16_eq]; congr 1; bv_omega
theorem arg1 (c : Cpu) : arg c 1 = rdw c.mem c.ss (c.bp + 6) := by
  simp only [arg, rd16_eq]; congr 1; bv_omega
theorem arg2 (c : Cpu) : arg c 2 = rdw c.mem c.ss (c.bp + 8) := by
  simp only [arg, rd16_eq]; congr 1; bv_omega
theorem arg3 (c : Cpu) : arg c 3 = rdw c.mem c.ss (c.bp + 10) := by
  simp only [arg, rd16_eq]; congr 1; bv_omega

/-- `a` is the address, in the data segment, of a string of `n` bytes followed by NUL. -/
def IsStr (c : Cpu) (a : Word) (n : Nat) : Prop :=
  (∀ i < n, c.rd8 c.ds (a + BitVec.ofNat 16 i) ≠ 0) ∧ c.rd8 c.ds (a + BitVec.ofNat 16 n) = 0

/-- Memory, stack pointers and segments are unchanged, and IP is after the code. -/
def Kept (c : Cpu) (len : Nat) (c' : Cpu) : Prop :=
  c'.mem = c.mem ∧ c'.sp = c.sp ∧ c'.bp = c.bp ∧ c'.cs = c.cs ∧ c'.ds = c.ds ∧ c'.es = c.es ∧ c'.ss = c.ss ∧
  c'.ip = c.ip + BitVec.ofNat 16 len

theorem strlen_loop (K : Contract) (n : Nat) (c : Cpu) (base : Word) (hc : c.codeAt base Lib.strlen)
    (hip : c.ip = base + 5) (hs : IsStr c c.si n) :
    Reach K c fun c' => c' = { c with ax := c'.ax, si := c.si + BitVec.ofNat 16 (n + 1), ip := base + 10, cf := c'.cf, zf := c'.zf, sf := c'.sf, of := c'.of } := by
  induction n generalizing c with
  | zero =>
    refine Reach.exec 5 [0xac] (.lods false) hc hip ⟨by decide, fun _ => rfl⟩ (by decide) ?_
    simp only [i86x]
    sx hc 6 [0x20, 0xc0] (.aluRmReg .and false (.reg 0) 0)
    sx hc 8 [0x75, 0xfb] (.jcc 5 0xfffb)
    have h0 := hs.2
    rw [ofNat_zero_add, rd8_eq] at h0
    simp only [h0, BEq.rfl, Bool.not_true, Bool.false_eq_true, if_false]
    exact .done rfl
  | succ n ih =>
    refine Reach.exec 5 [0xac] (.lods false) hc hip ⟨by decide, fun _ => rfl⟩ (by decide) ?_
    simp only [i86x]
    sx hc 6 [0x20, 0xc0] (.aluRmReg .and false (.reg 0) 0)
    sx hc 8 [0x75, 0xfb] (.jcc 5 0xfffb)
    have h0 := hs.1 0 (by omega)
    rw [ofNat_zero_add, rd8_eq] at h0
    simp only [beq_false_of_ne h0, Bool.not_false, if_true]
    refine (ih _ ?_ ?_ ⟨fun i hi => ?_, ?_⟩).mono ?_
    · exact codeAt_of_eq hc rfl rfl
    · rw [BitVec.add_assoc]; rfl
    · have := hs.1 (i + 1) (by omega)
      rw [← ofNat_succ_add] at this
      exact this
    · have := hs.2
      rw [← ofNat_succ_add] at this
      exact this
    · intro c' h
      rw [h, ← ofNat_succ_add c.si (n + 1)]

/-- `strlen` returns the length of its argument and changes neither memory nor SP, BP and the segment registers. -/
theorem C13_strlen (K : Contract) (c : Cpu) (n : Nat) (hc : c.codeAt c.ip Lib.strlen) (hs : IsStr c (arg c 0) n) :
    Reach K c fun c' => c'.ax = BitVec.ofNat 16 n ∧ Kept c 14 c' := by
  sx hc 0 [0x8b, 0x4e, 0x04] (.movRegRm true 1 (.mem none .bp 4))
  sx hc 3 [0x89, 0xce] (.movRmReg true (.reg 6) 1)
  refine (strlen_loop K n _ c.ip ?_ ?_ ?_).trans ?_
  · exact codeAt_of_eq hc rfl rfl
  · rfl
  · rw [arg0] at hs; exact hs
  · intro c1 h1
    have hc1 : c1.codeAt c.ip Lib.strlen := codeAt_of_eq hc (by rw [h1]) (by rw [h1])
    refine Reach.exec 10 [0x96] (.xchgAx 6) hc1 (by rw [h1]; rfl) ⟨by decide, fun _ => rfl⟩ (by decide) ?_
    simp only [i86x]
    sx hc1 11 [0x29, 0xc8] (.aluRmReg .sub true (.reg 0) 1)
    sx hc1 13 [0x48] (.incDec true true (.reg 0))
    refine .done ⟨?_, ?_⟩
    · rw [h1]
      simp only
      rw [← ofNat_succ_add]
      generalize BitVec.ofNat 16 n = N, rdw c.mem c.ss (c.bp + 4) = A
      bv_omega
    · rw [h1]; exact ⟨rfl, rfl, rfl, rfl, rfl, rfl, rfl, rfl⟩

/-! ## C14: `strcmp` -/

theorem strcmp_loop (K : Contract) (k : Nat) (c : Cpu) (base : Word) (hc : c.codeAt base Lib.strcmp) (hip : c.ip = base + 6)
    (heq : ∀ i < k, c.rd8 c.ds (c.si + BitVec.ofNat 16 i) = c.rd8 c.ds (c.di + BitVec.ofNat 16 i) ∧
      c.rd8 c.ds (c.si + BitVec.ofNat 16 i) ≠ 0)
    (hk : c.rd8 c.ds (c.si + BitVec.ofNat 16 k) ≠ c.rd8 c.ds (c.di + BitVec.ofNat 16 k) ∨
      c.rd8 c.ds (c.si + BitVec.ofNat 16 k) = 0) :
    Reach K c fun c' => c' = { c with ax := c'.ax, si := c'.si, di := c'.di, ip := base + 18, cf := c'.cf, zf := c'.zf, sf := c'.sf, of := c'.of } ∧
      lo c'.ax = c.rd8 c.ds (c.si + BitVec.ofNat 16 k) - c.rd8 c.ds (c.di + BitVec.ofNat 16 k) := by
  induction k generalizing c with
  | zero =>
    refine Reach.exec 6 [0xac] (.lods false) hc hip ⟨by decide, fun _ => rfl⟩ (by decide) ?_
    simp only [i86x]
    sx hc 7 [0x8a, 0x25] (.movRegRm false 4 (.mem none .di 0))
    sx hc 9 [0x47] (.incDec false true (.reg 7))
    sx hc 10 [0x28, 0xe0] (.aluRmReg .sub false (.reg 0) 4)
    sx hc 12 [0x75, 0x04] (.jcc 5 0x4)
    rw [ofNat_zero_add, ofNat_zero_add, rd8_eq, rd8_eq] at hk
    rw [show c.di + 0 = c.di from BitVec.add_zero _, show c.si + 0#16 = c.si from BitVec.add_zero _,
      show c.di + 0#16 = c.di from BitVec.add_zero _]
    generalize rdb c.mem c.ds c.si = a, rdb c.mem c.ds c.di = b at *
    by_cases h : a = b
    · have h0 : a = 0 := hk.resolve_left (fun h' => h' h)
      subst h
      subst h0
      simp only [show ((0 : Byte) - 0 == 0) = true from rfl, Bool.not_true, Bool.false_eq_true, if_false]
      sx hc 14 [0x20, 0xe4] (.aluRmReg .and false (.reg 4) 4)
      sx hc 16 [0x75, 0xf4] (.jcc 5 0xfff4)
      exact .done ⟨rfl, lo_append _ _⟩
    · have : (a - b == 0) = false := beq_false_of_ne (by bv_omega)
      simp only [this, Bool.not_false, if_true]
      refine .done ⟨?_, ?_⟩
      · rw [show base + 14#16 + 4 = base + 18 by bv_omega]
      · rw [lo_append]
  | succ k ih =>
    refine Reach.exec 6 [0xac] (.lods false) hc hip ⟨by decide, fun _ => rfl⟩ (by decide) ?_
    simp only [i86x]
    sx hc 7 [0x8a, 0x25] (.movRegRm false 4 (.mem none .di 0))
    sx hc 9 [0x47] (.incDec false true (.reg 7))
    sx hc 10 [0x28, 0xe0] (.aluRmReg .sub false (.reg 0) 4)
    sx hc 12 [0x75, 0x04] (.jcc 5 0x4)
    have h0 := heq 0 (by omega)
    rw [ofNat_zero_add, ofNat_zero_add, rd8_eq, rd8_eq] at h0
    rw [show c.di + 0 = c.di from BitVec.add_zero _, ← h0.1]
    rw [show (rdb c.mem c.ds c.si - rdb c.mem c.ds c.si == 0) = true from beq_iff_eq.2 (BitVec.sub_self _)]
    simp only [Bool.not_true, Bool.false_eq_true, if_false]
    sx hc 14 [0x20, 0xe4] (.aluRmReg .and false (.reg 4) 4)
    sx hc 16 [0x75, 0xf4] (.jcc 5 0xfff4)
    simp only [beq_false_of_ne h0.2, Bool.not_false, if_true]
    refine (ih _ ?_ ?_ ?_ ?_).mono ?_
    · exact codeAt_of_eq hc rfl rfl
    · bv_omega
    · intro i hi
      have := heq (i + 1) (by omega)
      rw [← ofNat_succ_add, ← ofNat_succ_add] at this
      exact this
    · rw [← ofNat_succ_add, ← ofNat_succ_add] at hk
      exact hk
    · rintro c' ⟨h1, h2⟩
      rw [← ofNat_succ_add c.si, ← ofNat_succ_add c.di]
      exact ⟨h1, h2⟩

/-- The first position where two strings differ, or both end. -/
def FirstDiff (c : Cpu) (a b : Word) (k : Nat) : Prop :=
  (∀ i < k, c.rd8 c.ds (a + BitVec.ofNat 16 i) = c.rd8 c.ds (b + BitVec.ofNat 16 i) ∧ c.rd8 c.ds (a + BitVec.ofNat 16 i) ≠ 0) ∧
  (c.rd8 c.ds (a + BitVec.ofNat 16 k) ≠ c.rd8 c.ds (b + BitVec.ofNat 16 k) ∨ c.rd8 c.ds (a + BitVec.ofNat 16 k) = 0)

theorem strcmp_run (K : Contract) (c : Cpu) (k : Nat) (hc : c.codeAt c.ip Lib.strcmp) (hk : FirstDiff c (arg c 0) (arg c 1) k) :
    Reach K c fun c' => c'.ax = (c.rd8 c.ds (arg c 0 + BitVec.ofNat 16 k) - c.rd8 c.ds (arg c 1 + BitVec.ofNat 16 k)).signExtend 16 ∧
      Kept c 19 c' := by
  rw [arg0, arg1] at *
  sx hc 0 [0x8b, 0x76, 0x04] (.movRegRm true 6 (.mem none .bp 4))
  sx hc 3 [0x8b, 0x7e, 0x06] (.movRegRm true 7 (.mem none .bp 6))
  refine (strcmp_loop K k _ c.ip ?_ ?_ ?_ ?_).trans ?_
  · exact codeAt_of_eq hc rfl rfl
  · rfl
  · exact hk.1
  · exact hk.2
  · rintro c1 ⟨h1, h2⟩
    have hc1 : c1.codeAt c.ip Lib.strcmp := codeAt_of_eq hc (by rw [h1]) (by rw [h1])
    refine Reach.exec 18 [0x98] .cbw hc1 (by rw [h1]; rfl) ⟨by decide, fun _ => rfl⟩ (by decide) ?_
    simp only [i86x]
    refine .done ⟨?_, ?_⟩
    · simp only [h2, i86x]
    · rw [h1]; exact ⟨rfl, rfl, rfl, rfl, rfl, rfl, rfl, rfl⟩

/-- The two addresses hold the same string: equal lengths and equal bytes. -/
def SameStr (c : Cpu) (a b : Word) : Prop :=
  ∃ n, IsStr c a n ∧ IsStr c b n ∧ ∀ i < n, c.rd8 c.ds (a + BitVec.ofNat 16 i) = c.rd8 c.ds (b + BitVec.ofNat 16 i)

theorem sext_zero_iff (x : Byte) : x.signExtend 16 = (0 : Word) ↔ x = 0 := by
  constructor
  · intro h
    have := congrArg lo h
    rw [lo_sext] at this
    exact this
  · rintro rfl; rfl

/-- `strcmp` with a NUL-terminated first argument terminates, changes no memory and returns 0 exactly when they are equal. -/
theorem C14_strcmp (K : Contract) (c : Cpu) (m : Nat) (hc : c.codeAt c.ip Lib.strcmp) (ha : IsStr c (arg c 0) m) :
    Reach K c fun c' => (c'.ax = 0 ↔ SameStr c (arg c 0) (arg c 1)) ∧ Kept c 19 c' := by
  generalize hA : arg c 0 = A at *
  generalize hB : arg c 1 = B at *
  have hm := ha.2
  obtain ⟨h1, h2, h3⟩ := firstDiff_spec (fun i => c.rd8 c.ds (A + BitVec.ofNat 16 i) == c.rd8 c.ds (B + BitVec.ofNat 16 i) &&
    c.rd8 c.ds (A + BitVec.ofNat 16 i) != 0) m
  generalize firstDiff _ m = k at h1 h2 h3
  have hk : FirstDiff c A B k := by
    refine ⟨fun i hi => by simpa using h2 i hi, ?_⟩
    rcases Nat.lt_or_eq_of_le h1 with h | h
    · have := h3 h
      simp only [Bool.and_eq_false_imp, beq_iff_eq, bne_eq_false_iff_eq] at this
      by_cases he : c.rd8 c.ds (A + BitVec.ofNat 16 k) = c.rd8 c.ds (B + BitVec.ofNat 16 k)
      · exact .inr (this he)
      · exact .inl he
    · rw [h]; exact .inr hm
  have hr := strcmp_run K c k hc (by rw [hA, hB]; exact hk)
  rw [hA, hB] at hr
  refine hr.mono ?_
  rintro c' ⟨e1, e2⟩
  refine ⟨?_, e2⟩
  rw [e1, sext_zero_iff]
  constructor
  · intro h
    have he : c.rd8 c.ds (A + BitVec.ofNat 16 k) = c.rd8 c.ds (B + BitVec.ofNat 16 k) := by bv_omega
    have hz := hk.2.resolve_left (fun h' => h' he)
    exact ⟨k, ⟨fun i hi => (hk.1 i hi).2, hz⟩, ⟨fun i hi => by rw [← (hk.1 i hi).1]; exact (hk.1 i hi).2, by rw [← he]; exact hz⟩,
      fun i hi => (hk.1 i hi).1⟩
  · rintro ⟨l, ⟨la, la0⟩, ⟨_, lb0⟩, hl⟩
    have : k = l := by
      rcases Nat.lt_trichotomy k l with h | h | h
      · exact (hk.2.elim (fun h' => h' (hl k h)) (fun h' => la k h h')).elim
      · exact h
      · exact ((hk.1 l h).2 la0).elim
    subst this
    rw [la0, lb0]
    rfl

/-- When the strings differ it is the difference of the first differing bytes, sign-extended from 8 bits. -/
theorem C14_strcmp_diff (K : Contract) (c : Cpu) (k : Nat) (hc : c.codeAt c.ip Lib.strcmp)
    (heq : ∀ i < k, c.rd8 c.ds (arg c 0 + BitVec.ofNat 16 i) = c.rd8 c.ds (arg c 1 + BitVec.ofNat 16 i) ∧
      c.rd8 c.ds (arg c 0 + BitVec.ofNat 16 i) ≠ 0)
    (hne : c.rd8 c.ds (arg c 0 + BitVec.ofNat 16 k) ≠ c.rd8 c.ds (arg c 1 + BitVec.ofNat 16 k)) :
    Reach K c fun c' => c'.ax = (c.rd8 c.ds (arg c 0 + BitVec.ofNat 16 k) - c.rd8 c.ds (arg c 1 + BitVec.ofNat 16 k)).signExtend 16 ∧
      c'.ax ≠ 0 ∧ Kept c 19 c' := by
  refine (strcmp_run K c k hc ⟨heq, .inl hne⟩).mono ?_
  rintro c' ⟨h1, h2⟩
  refine ⟨h1, ?_, h2⟩
  rw [h1, Ne, sext_zero_iff]
  bv_omega

/-! ## C15: `memcpy`, `memset` -/

/-- `memcpy` with ES = DS copies exactly `size` bytes when source and destination do not overlap; no other byte of memory
changes. -/
theorem C15_memcpy (K : Contract) (c : Cpu) (hc : c.codeAt c.ip Lib.memcpy)
    (hdis : ∀ i < (arg c 2).toNat, ∀ j < (arg c 2).toNat,
      lin c.ds (arg c 1 + BitVec.ofNat 16 i) ≠ lin c.es (arg c 0 + BitVec.ofNat 16 j)) :
    Reach K c fun c' =>
      (∀ i < (arg c 2).toNat, c'.rd8 c.es (arg c 0 + BitVec.ofNat 16 i) = c.rd8 c.ds (arg c 1 + BitVec.ofNat 16 i)) ∧
      (∀ a < 2 ^ 20, (∀ i < (arg c 2).toNat, a ≠ lin c.es (arg c 0 + BitVec.ofNat 16 i)) → c'.mem.get a = c.mem.get a) ∧
      Kept { c with mem := c'.mem } 11 c' := by
  rw [arg0, arg1, arg2] at *
  sx hc 0 [0x8b, 0x7e, 0x04] (.movRegRm true 7 (.mem none .bp 4))
  sx hc 3 [0x8b, 0x76, 0x06] (.movRegRm true 6 (.mem none .bp 6))
  sx hc 6 [0x8b, 0x4e, 0x08] (.movRegRm true 1 (.mem none .bp 8))
  sx hc 9 [0xf3, 0xa4] (.repMovs false)
  refine .done ⟨fun i hi => ?_, fun a ha h => ?_, ?_⟩
  · exact movs_copy _ { c with si := _, di := _, cx := _, ip := _ } (Nat.le_of_lt (BitVec.isLt _)) hdis hi
  · exact movs_frame _ { c with si := _, di := _, cx := _, ip := _ } ha h
  · rw [movs_regs]; exact ⟨rfl, rfl, rfl, rfl, rfl, rfl, rfl, rfl⟩

/-- `memset` fills exactly `size` bytes with the low byte of `val`. -/
theorem C15_memset (K : Contract) (c : Cpu) (hc : c.codeAt c.ip Lib.memset) :
    Reach K c fun c' =>
      (∀ i < (arg c 2).toNat, c'.rd8 c.es (arg c 0 + BitVec.ofNat 16 i) = (arg c 1).setWidth 8) ∧
      (∀ a < 2 ^ 20, (∀ i < (arg c 2).toNat, a ≠ lin c.es (arg c 0 + BitVec.ofNat 16 i)) → c'.mem.get a = c.mem.get a) ∧
      Kept { c with mem := c'.mem } 11 c' := by
  rw [arg0, arg1, arg2] at *
  sx hc 0 [0x8b, 0x7e, 0x04] (.movRegRm true 7 (.mem none .bp 4))
  sx hc 3 [0x8b, 0x46, 0x06] (.movRegRm true 0 (.mem none .bp 6))
  sx hc 6 [0x8b, 0x4e, 0x08] (.movRegRm true 1 (.mem none .bp 8))
  sx hc 9 [0xf3, 0xaa] (.repStos false)
  refine .done ⟨fun i hi => ?_, fun a ha h => ?_, ?_⟩
  · exact stosN_fill _ { c with ax := _, di := _, cx := _, ip := _ } (Nat.le_of_lt (BitVec.isLt _)) hi
  · exact stosN_frame _ { c with ax := _, di := _, cx := _, ip := _ } ha h
  · rw [stosN_regs]; exact ⟨rfl, rfl, rfl, rfl, rfl, rfl, rfl, rfl⟩

/-! ## C16: `FarPeek`, `FarPoke`, `DosCall` -/

/-- Address `a` is one of the two bytes below the stack pointer, which a PUSH overwrites. -/
def Below (c : Cpu) (a : Nat) : Prop := a = lin c.ss (c.sp - 2) ∨ a = lin c.ss (c.sp - 2 + 1)

theorem Below.apart {c : Cpu} {s o : Word} (h : ¬ Below c (lin s o)) : Apart c.ss (c.sp - 2) s o :=
  ⟨fun e => h (.inl e.symm), fun e => h (.inr e.symm)⟩

theorem codeAt_wrw {c : Cpu} {base s o v : Word} {code : List Byte} (h : c.codeAt base code)
    (ha : ∀ i < code.length, Apart s o c.cs (base + BitVec.ofNat 16 i)) : { c with mem := wrw c.mem s o v }.codeAt base code :=
  codeAt_congr (c := c) rfl (fun i hi => rdb_wrw_ne _ _ (ha i hi)) h

theorem codeAt_wrb {c : Cpu} {base s o : Word} {v : Byte} {code : List Byte} (h : c.codeAt base code)
    (ha : ∀ i < code.length, lin s o ≠ lin c.cs (base + BitVec.ofNat 16 i)) : { c with mem := wrb c.mem s o v }.codeAt base code :=
  codeAt_congr (c := c) rfl (fun i hi => rdb_wrb_ne _ _ (ha i hi)) h

theorem rdw_wrw_ne (m : Mem 20) {s o s' o' : Word} (v : Word) (h : Apart s o s' o') (h' : Apart s o s' (o' + 1)) :
    rdw (wrw m s o v) s' o' = rdw m s' o' := by
  unfold rdw; rw [rdb_wrw_ne _ _ h, rdb_wrw_ne _ _ h']

theorem zero_append (b : Byte) : (0#8 ++ b : Word) = b.setWidth 16 := by
  apply BitVec.eq_of_toNat_eq
  rw [BitVec.toNat_append]
  simp
  omega

/-- `FarPeek(seg, off)` returns the byte at `seg:off`, restores DS and SP, and changes only the two bytes below SP,
which it must not be asked for. -/
theorem C16_farPeek (K : Contract) (c : Cpu) (hc : c.codeAt c.ip Lib.farPeek)
    (hcode : ∀ i < 11, ¬ Below c (lin c.cs (c.ip + BitVec.ofNat 16 i)))
    (hargs : ∀ i < 4, ¬ Below c (lin c.ss (c.bp + 4 + BitVec.ofNat 16 i)))
    (ht : ¬ Below c (lin (arg c 0) (arg c 1))) :
    Reach K c fun c' => c'.ax = (c.rd8 (arg c 0) (arg c 1)).setWidth 16 ∧
      (∀ a < 2 ^ 20, ¬ Below c a → c'.mem.get a = c.mem.get a) ∧ Kept { c with mem := c'.mem } 11 c' := by
  have hc1 := codeAt_wrw (v := c.ds) hc fun i hi => Below.apart (hcode i hi)
  have a0 : rdw (wrw c.mem c.ss (c.sp - 2) c.ds) c.ss (c.bp + 4) = arg c 0 := by
    rw [arg0, rdw_wrw_ne]
    · have := Below.apart (hargs 0 (by omega)); rwa [ofNat_zero_add] at this
    · exact Below.apart (hargs 1 (by omega))
  have a1 : rdw (wrw c.mem c.ss (c.sp - 2) c.ds) c.ss (c.bp + 6) = arg c 1 := by
    rw [arg1, rdw_wrw_ne]
    · have := Below.apart (hargs 2 (by omega))
      rwa [show c.bp + 4 + BitVec.ofNat 16 2 = c.bp + 6 by bv_omega] at this
    · have := Below.apart (hargs 3 (by omega))
      rwa [show c.bp + 4 + BitVec.ofNat 16 3 = c.bp + 6 + 1 by bv_omega] at this
  sx hc 0 [0x1e] (.pushSeg .ds)
  sx hc1 1 [0x8e, 0x5e, 0x04] (.movSegRm .ds (.mem none .bp 4))
  sx hc1 4 [0x8b, 0x76, 0x06] (.movRegRm true 6 (.mem none .bp 6))
  sx hc1 7 [0xac] (.lods false)
  sx hc1 8 [0x30, 0xe4] (.aluRmReg .xor false (.reg 4) 4)
  sx hc1 10 [0x1f] (.popSeg .ds)
  refine .done ⟨?_, fun a ha h => ?_, ?_⟩
  · simp only [a0, a1, rdb_wrw_ne _ _ (Below.apart ht), BitVec.xor_self]
    exact zero_append _
  · exact get_wr16_ne c _ ha (fun e => h (.inl e)) (fun e => h (.inr e))
  · refine ⟨rfl, ?_, rfl, rfl, ?_, rfl, rfl, rfl⟩
    · simp only; bv_omega
    · exact rdw_wrw_self _ _ _ _

/-- `FarPoke(seg, off, val)` stores the low byte of `val` at `seg:off`, restores ES and SP, and changes nothing else but
the two bytes below SP. -/
theorem C16_farPoke (K : Contract) (c : Cpu) (hc : c.codeAt c.ip Lib.farPoke)
    (hcode : ∀ i < 12, ¬ Below c (lin c.cs (c.ip + BitVec.ofNat 16 i)))
    (hargs : ∀ i < 6, ¬ Below c (lin c.ss (c.bp + 4 + BitVec.ofNat 16 i)))
    (ht : ¬ Below c (lin (arg c 0) (arg c 1)))
    (htc : ∀ i < 12, lin (arg c 0) (arg c 1) ≠ lin c.cs (c.ip + BitVec.ofNat 16 i)) :
    Reach K c fun c' => c'.rd8 (arg c 0) (arg c 1) = (arg c 2).setWidth 8 ∧
      (∀ a < 2 ^ 20, ¬ Below c a → a ≠ lin (arg c 0) (arg c 1) → c'.mem.get a = c.mem.get a) ∧
      Kept { c with mem := c'.mem } 12 c' := by
  have hc1 := codeAt_wrw (v := c.es) hc fun i hi => Below.apart (hcode i hi)
  have hc2 := codeAt_wrb (v := (arg c 2).setWidth 8) hc1 htc
  have a0 : rdw (wrw c.mem c.ss (c.sp - 2) c.es) c.ss (c.bp + 4) = arg c 0 := by
    rw [arg0, rdw_wrw_ne]
    · have := Below.apart (hargs 0 (by omega)); rwa [ofNat_zero_add] at this
    · exact Below.apart (hargs 1 (by omega))
  have a1 : rdw (wrw c.mem c.ss (c.sp - 2) c.es) c.ss (c.bp + 6) = arg c 1 := by
    rw [arg1, rdw_wrw_ne]
    · have := Below.apart (hargs 2 (by omega))
      rwa [show c.bp + 4 + BitVec.ofNat 16 2 = c.bp + 6 by bv_omega] at this
    · have := Below.apart (hargs 3 (by omega))
      rwa [show c.bp + 4 + BitVec.ofNat 16 3 = c.bp + 6 + 1 by bv_omega] at this
  have a2 : rdb (wrw c.mem c.ss (c.sp - 2) c.es) c.ss (c.bp + 8) = (arg c 2).setWidth 8 := by
    rw [arg2, rdb_wrw_ne]
    · exact (lo_append _ _).symm
    · have := Below.apart (hargs 4 (by omega))
      rwa [show c.bp + 4 + BitVec.ofNat 16 4 = c.bp + 8 by bv_omega] at this
  sx hc 0 [0x06] (.pushSeg .es)
  sx hc1 1 [0x8e, 0x46, 0x04] (.movSegRm .es (.mem none .bp 4))
  sx hc1 4 [0x8b, 0x7e, 0x06] (.movRegRm true 7 (.mem none .bp 6))
  sx hc1 7 [0x8a, 0x46, 0x08] (.movRegRm false 0 (.mem none .bp 8))
  sx hc1 10 [0xaa] (.stos false)
  simp only [a0, a1, a2]
  sx hc2 11 [0x07] (.popSeg .es)
  refine .done ⟨?_, fun a ha h h' => ?_, ?_⟩
  · exact rdb_wrb_self _ _ _ _
  · refine (Mem.get_set_ne _ _ (lin_lt _ _) ha h'.symm).trans ?_
    exact get_wr16_ne c _ ha (fun e => h (.inl e)) (fun e => h (.inr e))
  · refine ⟨rfl, ?_, rfl, rfl, rfl, ?_, rfl, rfl⟩
    · simp only; bv_omega
    · simp only
      rw [rdw, rdb_wrb_ne _ _ (fun e => ht (.inr e)), rdb_wrb_ne _ _ (fun e => ht (.inl e))]
      exact rdw_wrw_self _ _ _ _

/-- Up to the interrupt, `DosCall(&ax, bx, cx, dx)` loads AX from `*ax` (in the stack segment) and BX, CX, DX from the
other arguments, and changes no memory. -/
theorem C16_dosCall_before (K : Contract) (c : Cpu) (hc : c.codeAt c.ip Lib.dosCall) :
    Reach K c fun c' => c'.step K = .intr 0x21
      { c with ax := c.rd16 c.ss (arg c 0), bx := arg c 1, cx := arg c 2, dx := arg c 3, ip := c.ip + 17 } := by
  rw [arg0, arg1, arg2, arg3]
  sx hc 0 [0x8b, 0x5e, 0x04] (.movRegRm true 3 (.mem none .bp 4))
  sx hc 3 [0x36, 0x8b, 0x07] (.movRegRm true 0 (.mem (some .ss) .bx 0))
  sx hc 6 [0x8b, 0x5e, 0x06] (.movRegRm true 3 (.mem none .bp 6))
  sx hc 9 [0x8b, 0x4e, 0x08] (.movRegRm true 1 (.mem none .bp 8))
  sx hc 12 [0x8b, 0x56, 0x0a] (.movRegRm true 2 (.mem none .bp 10))
  refine .done ?_
  refine Eq.trans (step_at (base := c.ip) (code := Lib.dosCall) 15 [0xcd, 0x21] (.int 0x21) ?_ ?_ ⟨by decide, fun _ => rfl⟩ (by decide)) ?_
  · exact codeAt_of_eq hc rfl rfl
  · rfl
  simp only [i86x]
  rw [show (∀ x : Word, x + 0 = x) from fun x => BitVec.add_zero x]
  rfl

/-- After the interrupt, in any state `c2` that the handler may return to (same IP, CS, SS, BP; code and frame intact; carry
defined), it stores AX back and returns -1 if carry is set and 0 otherwise. -/
theorem C16_dosCall_after (K : Contract) (c2 : Cpu) (base : Word) (b : Bool) (hc : c2.codeAt base Lib.dosCall)
    (hip : c2.ip = base + 17) (hcf : c2.cf = some b)
    (hcode : ∀ i < 28, Apart c2.ss (arg c2 0) c2.cs (base + BitVec.ofNat 16 i)) :
    Reach K c2 fun c' => c'.ax = (if b then -1 else 0) ∧ c'.mem = wrw c2.mem c2.ss (arg c2 0) c2.ax ∧
      c'.sp = c2.sp ∧ c'.bp = c2.bp ∧ c'.ip = base + 28 := by
  have hc1 := codeAt_wrw (v := c2.ax) hc hcode
  rw [arg0] at *
  refine Reach.exec 17 [0x8b, 0x5e, 0x04] (.movRegRm true 3 (.mem none .bp 4)) hc hip ⟨by decide, fun _ => rfl⟩ (by decide) ?_
  simp only [i86x, Nat.reduceAdd]
  sx hc 20 [0x36, 0x89, 0x07] (.movRmReg true (.mem (some .ss) .bx 0) 0)
  rw [show ∀ x : Word, x + 0 = x from fun x => BitVec.add_zero x]
  sx hc1 23 [0xb8, 0x00, 0x00] (.movImm true (.reg 0) 0)
  refine Reach.exec 26 [0x19, 0xc0] (.aluRmReg .sbb true (.reg 0) 0) (codeAt_of_eq hc1 rfl rfl) rfl ⟨by decide, fun _ => rfl⟩ (by decide) ?_
  simp only [i86x, hcf]
  refine .done ⟨?_, rfl, rfl, rfl, rfl⟩
  cases b <;> rfl

/-! ## Examples: states meeting the hypotheses -/

/-- A processor with `code` at 2000:0100, `data` at 2000:0300, and a frame at BP = FFF0h holding `args`. -/
def frame (code data : List Byte) (args : List Word) : Cpu :=
  let z : Cpu := ⟨0, 0, 0, 0, 0xfff0, 0xfff0, 0, 0, 0x2000, 0x2000, 0x2000, 0x2000, 0x100, some false, none, none, none, Mem.const 0 20⟩
  ((z.store 0x2000 0x100 code).store 0x2000 0x300 data).store 0x2000 0xfff4 (args.flatMap fun w => [lo w, hi w])

example (K : Contract) : Reach K (frame Lib.strlen [0x61, 0x62, 0x63, 0] [0x300]) fun c' => c'.ax = 3 :=
  (C13_strlen K _ 3 (by decide +kernel) ⟨by decide +kernel, by decide +kernel⟩).mono fun _ h => h.1

example (K : Contract) : Reach K (frame Lib.strcmp [0x61, 0x62, 0, 0x61, 0x63, 0] [0x300, 0x303]) fun c' => c'.ax = -1 :=
  (C14_strcmp_diff K _ 1 (by decide +kernel) (by decide +kernel) (by decide +kernel)).mono fun _ h =>
    h.1.trans (by decide +kernel)

example (K : Contract) : Reach K (frame Lib.strcmp [0x61, 0x62, 0, 0x61, 0x62, 0] [0x300, 0x303]) fun c' => c'.ax = 0 :=
  (C14_strcmp K _ 2 (by decide +kernel) ⟨by decide +kernel, by decide +kernel⟩).mono fun _ h =>
    h.1.2 ⟨2, ⟨by decide +kernel, by decide +kernel⟩, ⟨by decide +kernel, by decide +kernel⟩, by decide +kernel⟩

example (K : Contract) : Reach K (frame Lib.memcpy [1, 2, 3] [0x400, 0x300, 3]) fun c' => c'.rd8 0x2000 0x402 = 3 :=
  (C15_memcpy K _ (by decide +kernel) (by decide +kernel)).mono fun _ h => (h.1 2 (by decide +kernel)).trans (by decide +kernel)

example (K : Contract) : Reach K (frame Lib.memset [1, 2, 3] [0x300, 0x1ff, 2]) fun c' => c'.rd8 0x2000 0x301 = 0xff :=
  (C15_memset K _ (by decide +kernel)).mono fun _ h => (h.1 1 (by decide +kernel)).trans (by decide +kernel)

instance (c : Cpu) (a : Nat) : Decidable (Below c a) := by unfold Below; infer_instance
instance (s o s' o' : Word) : Decidable (Apart s o s' o') := by unfold Apart; infer_instance

example (K : Contract) : Reach K (frame Lib.farPeek [0x99] [0x2030, 0]) fun c' => c'.ax = 0x99 :=
  (C16_farPeek K _ (by decide +kernel) (by decide +kernel) (by decide +kernel) (by decide +kernel)).mono fun _ h =>
    h.1.trans (by decide +kernel)

example (K : Contract) : Reach K (frame Lib.farPoke [] [0xb800, 0, 0x41]) fun c' => c'.rd8 0xb800 0 = 0x41 :=
  (C16_farPoke K _ (by decide +kernel) (by decide +kernel) (by decide +kernel) (by decide +kernel) (by decide +kernel)).mono fun _ h => h.1

example (K : Contract) : Reach K (frame Lib.dosCall [0x00, 0x4c] [0x300, 7, 8, 9]) fun c' =>
    ∃ c1, c'.step K = .intr 0x21 c1 ∧ c1.ax = 0x4c00 ∧ c1.bx = 7 ∧ c1.cx = 8 ∧ c1.dx = 9 :=
  (C16_dosCall_before K _ (by decide +kernel)).mono fun _ h =>
    ⟨_, h, by decide +kernel, by decide +kernel, by decide +kernel, by decide +kernel⟩

example (K : Contract) : Reach K { frame Lib.dosCall [] [0x300, 7, 8, 9] with ip := 0x111, cf := some true, ax := 2 } fun c' => c'.ax = -1 :=
  (C16_dosCall_after K _ 0x100 true (by decide +kernel) (by decide +kernel) rfl (by decide +kernel)).mono fun _ h => h.1

end Props
