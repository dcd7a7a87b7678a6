import Verif.Sim86.Alu
/-!
# Weakest preconditions and the abstraction function for the simulator model
-/
namespace Sim86
open I86
variable {σ α β : Type}

/-- `x` run from `s` ends normally in a state and with a value satisfying `Q`. -/
def wp (x : M σ α) (s : St σ) (Q : α → St σ → Prop) : Prop := ∃ a s', x s = .ok a s' ∧ Q a s'

theorem bind_run (x : M σ α) (f : α → M σ β) (s : St σ) :
    (x >>= f) s = match x s with
      | .ok a s => f a s
      | .err e s => .err e s := rfl

theorem pure_run (a : α) (s : St σ) : (pure a : M σ α) s = .ok a s := rfl

theorem wp_pure (a : α) (s : St σ) (Q) : wp (pure a : M σ α) s Q ↔ Q a s := by
  constructor
  · rintro ⟨a', s', h, hq⟩; cases h; exact hq
  · intro h; exact ⟨a, s, rfl, h⟩

theorem wp_bind (x : M σ α) (f : α → M σ β) (s : St σ) (Q) :
    wp (x >>= f) s Q ↔ wp x s (fun a s' => wp (f a) s' Q) := by
  constructor
  · rintro ⟨b, s', h, hq⟩
    rw [bind_run] at h
    cases hx : x s with
    | ok a s1 => rw [hx] at h; exact ⟨a, s1, hx, b, s', h, hq⟩
    | err e s1 => rw [hx] at h; cases h
  · rintro ⟨a, s1, hx, b, s', h, hq⟩
    exact ⟨b, s', by rw [bind_run, hx]; exact h, hq⟩

theorem wp_of_eq {x : M σ α} {s : St σ} {a s'} {Q : α → St σ → Prop} (h : x s = .ok a s') : wp x s Q ↔ Q a s' := by
  constructor
  · rintro ⟨a', s1, h1, hq⟩; rw [h] at h1; cases h1; exact hq
  · intro hq; exact ⟨a, s', h, hq⟩

theorem wp_mono {x : M σ α} {s : St σ} {P Q : α → St σ → Prop} (h : wp x s P) (hpq : ∀ a s', P a s' → Q a s') :
    wp x s Q := by
  obtain ⟨a, s', h1, h2⟩ := h
  exact ⟨a, s', h1, hpq _ _ h2⟩

theorem wp_getS (s : St σ) (Q) : wp getS s Q ↔ Q s s := wp_of_eq rfl
theorem wp_modS (f : St σ → St σ) (s : St σ) (Q) : wp (modS f) s Q ↔ Q () (f s) := wp_of_eq rfl
theorem wp_getReg (r) (s : St σ) (Q) : wp (getReg r) s Q ↔ Q (s.reg r) s := wp_of_eq rfl
theorem wp_putReg (r v) (s : St σ) (Q) : wp (putReg r v) s Q ↔ Q () (s.setReg r v) := wp_of_eq rfl
theorem wp_getSreg (r) (s : St σ) (Q) : wp (getSreg r) s Q ↔ Q (s.sreg r) s := wp_of_eq rfl
theorem wp_putSreg (r v) (s : St σ) (Q) : wp (putSreg r v) s Q ↔ Q () (s.setSreg r v) := wp_of_eq rfl
theorem wp_setDsize (b) (s : St σ) (Q) : wp (setDsize b) s Q ↔ Q () { s with dsize := b } := wp_of_eq rfl
theorem wp_assertM (b : Bool) (hb : b = true) (s : St σ) (Q) : wp (assertM b) s Q ↔ Q () s := by
  subst hb; exact wp_of_eq rfl

/-! ## Signed arithmetic without overflow -/

theorem addI_eq {a b : W} (s : St σ) (h1 : -2 ^ 31 ≤ a.toInt + b.toInt) (h2 : a.toInt + b.toInt < 2 ^ 31) :
    addI a b s = .ok (a + b) s := by
  have : BitVec.saddOverflow a b = false := by
    simp only [BitVec.saddOverflow, Bool.or_eq_false_iff, decide_eq_false_iff_not]
    omega
  simp [addI, this, pure_run]

theorem toInt_add_eq {a b : W} (h1 : -2 ^ 31 ≤ a.toInt + b.toInt) (h2 : a.toInt + b.toInt < 2 ^ 31) :
    (a + b).toInt = a.toInt + b.toInt := by
  rw [BitVec.toInt_add]
  apply Int.bmod_eq_of_le <;> omega

theorem wp_addI {a b : W} (s : St σ) (Q) (h1 : -2 ^ 31 ≤ a.toInt + b.toInt) (h2 : a.toInt + b.toInt < 2 ^ 31) :
    wp (addI a b) s Q ↔ Q (a + b) s := wp_of_eq (addI_eq s h1 h2)

/-! ## Abstraction to 16-bit registers -/

/-- The low 16 bits of a host integer. -/
abbrev t16 (x : W) : Word := x.setWidth 16
/-- The low 8 bits of a host integer. -/
abbrev t8 (x : W) : Byte := x.setWidth 8

/-- What is known about the four flags. -/
structure Flags4 where
  cf : Flag
  zf : Flag
  sf : Flag
  of : Flag

/-- The processor state a simulator state stands for; `F` is the knowledge about flags. -/
def abs (s : St σ) (F : Flags4) : Cpu where
  ax := t16 s.ax
  cx := t16 s.cx
  dx := t16 s.dx
  bx := t16 s.bx
  sp := t16 s.sp
  bp := t16 s.bp
  si := t16 s.si
  di := t16 s.di
  es := t16 s.es
  cs := t16 s.cs
  ss := t16 s.ss
  ds := t16 s.ds
  ip := t16 s.ip
  cf := F.cf
  zf := F.zf
  sf := F.sf
  of := F.of
  mem := s.mem

/-- The known flags agree with the simulator's flag word. -/
structure FlagsOk (F : Flags4) (f : W) : Prop where
  cf : ∀ v, F.cf = some v → cfOf f = v
  zf : ∀ v, F.zf = some v → zfOf f = v
  sf : ∀ v, F.sf = some v → sfOf f = v
  of : ∀ v, F.of = some v → ofOf f = v

/-- The simulator state `s` represents the processor state `c`. -/
def Rel (s : St σ) (c : Cpu) : Prop := ∃ F, c = abs s F ∧ FlagsOk F s.flags

def Cpu.flags4 (c : Cpu) : Flags4 := ⟨c.cf, c.zf, c.sf, c.of⟩

/-- Host register values stay far from signed overflow. -/
structure Safe (s : St σ) : Prop where
  reg : ∀ r, -2 ^ 28 ≤ (s.reg r).toInt ∧ (s.reg r).toInt < 2 ^ 28
  ip : -2 ^ 28 ≤ s.ip.toInt ∧ s.ip.toInt < 2 ^ 28

def srIdx : SReg → Fin 4
  | .es => 0 | .cs => 1 | .ss => 2 | .ds => 3

variable (s : St σ) (F : Flags4)

theorem abs_reg (r : Fin 8) : (abs s F).reg16 r = t16 (s.reg r) := by
  match r with
  | 0 | 1 | 2 | 3 | 4 | 5 | 6 | 7 => rfl

theorem abs_setReg (r : Fin 8) (v : W) : abs (s.setReg r v) F = (abs s F).setReg16 r (t16 v) := by
  match r with
  | 0 | 1 | 2 | 3 | 4 | 5 | 6 | 7 => rfl

theorem abs_sreg (r : SReg) : (abs s F).sreg r = t16 (s.sreg (srIdx r)) := by
  cases r <;> rfl

theorem abs_setSreg (r : SReg) (v : W) : abs (s.setSreg (srIdx r) v) F = (abs s F).setSreg r (t16 v) := by
  cases r <;> rfl

theorem reg_setReg_self (r : Fin 8) (v : W) : (s.setReg r v).reg r = v := by
  match r with
  | 0 | 1 | 2 | 3 | 4 | 5 | 6 | 7 => rfl

theorem reg_setReg_ne (r r' : Fin 8) (v : W) (h : r ≠ r') : (s.setReg r v).reg r' = s.reg r' := by
  match r, r' with
  | 0, 1 | 0, 2 | 0, 3 | 0, 4 | 0, 5 | 0, 6 | 0, 7 => rfl
  | 1, 0 | 1, 2 | 1, 3 | 1, 4 | 1, 5 | 1, 6 | 1, 7 => rfl
  | 2, 0 | 2, 1 | 2, 3 | 2, 4 | 2, 5 | 2, 6 | 2, 7 => rfl
  | 3, 0 | 3, 1 | 3, 2 | 3, 4 | 3, 5 | 3, 6 | 3, 7 => rfl
  | 4, 0 | 4, 1 | 4, 2 | 4, 3 | 4, 5 | 4, 6 | 4, 7 => rfl
  | 5, 0 | 5, 1 | 5, 2 | 5, 3 | 5, 4 | 5, 6 | 5, 7 => rfl
  | 6, 0 | 6, 1 | 6, 2 | 6, 3 | 6, 4 | 6, 5 | 6, 7 => rfl
  | 7, 0 | 7, 1 | 7, 2 | 7, 3 | 7, 4 | 7, 5 | 7, 6 => rfl
  | 0, 0 | 1, 1 | 2, 2 | 3, 3 | 4, 4 | 5, 5 | 6, 6 | 7, 7 => exact absurd rfl h

/-! ## Addresses -/

theorem trim_toNat (x : W) : (TRIM x).toNat = (t16 x).toNat := by
  rw [TRIM, BitVec.toNat_and, BitVec.toNat_setWidth]
  exact Nat.and_two_pow_sub_one_eq_mod x.toNat 16

theorem makeaddr_toNat (sr off : W) : (MAKEADDR sr off).toNat = Cpu.lin (t16 sr) (t16 off) := by
  have h1 := (t16 sr).isLt
  have h2 := (t16 off).isLt
  have h3 : ∀ x : W, (x &&& 0xfffff).toNat = x.toNat % 2 ^ 20 := by
    intro x
    rw [BitVec.toNat_and]
    exact Nat.and_two_pow_sub_one_eq_mod x.toNat 20
  rw [MAKEADDR, h3, BitVec.toNat_add, BitVec.toNat_mul, trim_toNat, trim_toNat, Cpu.lin]
  have : (16 : W).toNat = 16 := rfl
  rw [this]
  omega

theorem lin_lt (a b : Word) : Cpu.lin a b < 2 ^ 20 := Nat.mod_lt _ (by decide)

theorem t16_add (a b : W) : t16 (a + b) = t16 a + t16 b := BitVec.setWidth_add _ _ (by omega)
theorem t16_one : t16 (1 : W) = 1 := rfl

theorem Read8_eq (sr : SReg) (off : W) :
    Read8 (srIdx sr) off s = .ok (((abs s F).rd8 ((abs s F).sreg sr) (t16 off)).setWidth 32) s := by
  rw [Cpu.rd8, abs_sreg, ← makeaddr_toNat]; rfl

theorem wp_Read8 (sr : SReg) (off : W) (Q) :
    wp (Read8 (srIdx sr) off) s Q ↔ Q (((abs s F).rd8 ((abs s F).sreg sr) (t16 off)).setWidth 32) s :=
  wp_of_eq (Read8_eq s F sr off)

theorem Write8_eq (sr : SReg) (off v : W) : ∃ s', Write8 (srIdx sr) off v s = .ok () s' ∧
    s' = { s with mem := s'.mem } ∧
    ∀ F, abs s' F = (abs s F).wr8 ((abs s F).sreg sr) (t16 off) (t8 v) := by
  refine ⟨_, rfl, rfl, ?_⟩
  intro F
  rw [Cpu.wr8, abs_sreg, ← makeaddr_toNat]; rfl

theorem or_shift (lo hi : Byte) : (lo.setWidth 32 ||| hi.setWidth 32 <<< 8 : W) = (hi ++ lo).setWidth 32 := by
  apply BitVec.eq_of_getLsbD_eq
  intro i hi'
  simp only [BitVec.getLsbD_or, BitVec.getLsbD_setWidth, BitVec.getLsbD_shiftLeft, BitVec.getLsbD_append, hi',
    decide_true, Bool.true_and]
  by_cases h : i < 8
  · simp [h]
  · have h1 : i - 8 < 32 := by omega
    have h2 : lo.getLsbD i = false := BitVec.getLsbD_of_ge _ _ (by omega)
    simp [h, h1, h2]

/-- The word at `sr:off` as the simulator returns it. -/
theorem wp_Read16 (sr : SReg) (off : W) (Q) (h1 : -2 ^ 31 ≤ off.toInt) (h2 : off.toInt < 2 ^ 31 - 1) :
    wp (Read16 (srIdx sr) off) s Q ↔ Q (((abs s F).rd16 ((abs s F).sreg sr) (t16 off)).setWidth 32) s := by
  have h1' : (1 : W).toInt = 1 := rfl
  simp only [Read16, wp_bind, wp_Read8 s F, wp_pure]
  rw [wp_addI s _ (by omega) (by omega), wp_Read8 s F, or_shift, t16_add, t16_one]; rfl

theorem t8_sshiftRight (v : W) : t8 (v.sshiftRight 8) = Cpu.hi (t16 v) := by
  apply BitVec.eq_of_getLsbD_eq
  intro i hi
  simp only [BitVec.getLsbD_setWidth, BitVec.getLsbD_sshiftRight, Cpu.hi, BitVec.getLsbD_extractLsb', hi,
    decide_true, Bool.true_and]
  have h1 : ¬ (32 ≤ i) := by omega
  have h2 : 8 + i < 32 := by omega
  have h3 : 8 + i < 16 := by omega
  simp [h1, h2, h3]

theorem t8_eq_lo (v : W) : t8 v = Cpu.lo (t16 v) := by
  apply BitVec.eq_of_getLsbD_eq
  intro i hi
  simp only [BitVec.getLsbD_setWidth, Cpu.lo, hi, decide_true, Bool.true_and]
  have : i < 16 := by omega
  simp [this]

theorem Write16_wp (sr : SReg) (off v : W) (h1 : -2 ^ 31 ≤ off.toInt) (h2 : off.toInt < 2 ^ 31 - 1) :
    wp (Write16 (srIdx sr) off v) s fun _ s' => s' = { s with mem := s'.mem } ∧
      ∀ F, abs s' F = (abs s F).wr16 ((abs s F).sreg sr) (t16 off) (t16 v) := by
  have h1' : (1 : W).toInt = 1 := rfl
  obtain ⟨s1, e1, f1, a1⟩ := Write8_eq s sr off v
  simp only [Write16, wp_bind]
  rw [wp_of_eq e1, wp_addI s1 _ (by omega) (by omega)]
  obtain ⟨s2, e2, f2, a2⟩ := Write8_eq s1 sr (off + 1) (v.sshiftRight 8)
  rw [wp_of_eq e2]
  refine ⟨by rw [f2, f1], fun F => ?_⟩
  rw [a2, a1, Cpu.wr16, t16_add, t16_one, t8_sshiftRight, t8_eq_lo]
  rfl

end Sim86
