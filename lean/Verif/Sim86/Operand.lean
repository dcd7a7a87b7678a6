import Verif.Sim86.Basic
/-!
# Instruction fetch and operands of the simulator model against the specification
-/
namespace Sim86
open I86
variable {σ α β : Type}

/-- The bytes `l` stand at CS:`ip`. -/
def Ahead (s : St σ) : List Byte → W → Prop
  | [], _ => True
  | b :: bs, ip => b = s.mem.get (MAKEADDR s.cs ip).toNat ∧ Ahead s bs (ip + 1)

theorem ahead_fetch (s : St σ) (F : Flags4) (n : Nat) (ip : W) : Ahead s ((abs s F).fetch n (t16 ip)) ip := by
  induction n generalizing ip with
  | zero => trivial
  | succ n ih =>
    refine ⟨?_, ?_⟩
    · rw [makeaddr_toNat]; rfl
    · have := ih (ip + 1)
      rw [t16_add] at this
      exact this

/-- The state while an instruction is decoded: `k` bytes were read since `s`. -/
def dec (s : St σ) (k : Nat) (m : Option Byte) (a : W) (sg : Option (Fin 4)) (dz : Bool) : St σ :=
  { s with ip := s.ip + BitVec.ofNat 32 k, modrm := m, addr := a, seg := sg, dsize := dz }

theorem ofNat_toInt {k : Nat} (hk : k ≤ 65535) : (BitVec.ofNat 32 k).toInt = k := by
  rw [show (BitVec.ofNat 32 k).toInt = Int.bmod k (2 ^ 32) from BitVec.toInt_ofNat' k]
  apply Int.bmod_eq_of_le <;> omega

theorem zext_toInt {n : Nat} (hn : n ≤ 16) (x : BitVec n) : (x.setWidth 32 : W).toInt = x.toNat := by
  have := x.isLt
  have : 2 ^ n ≤ 2 ^ 16 := Nat.pow_le_pow_right (by omega) hn
  rw [BitVec.toInt_setWidth]
  apply Int.bmod_eq_of_le <;> omega

theorem schar_toInt (x : W) : -128 ≤ (schar x).toInt ∧ (schar x).toInt < 128 := by
  rw [schar, BitVec.toInt_signExtend_of_le (by omega)]
  have h1 := BitVec.le_toInt (x.setWidth 8)
  have h2 := BitVec.toInt_lt (x := x.setWidth 8)
  omega

section
variable {s : St σ} {k : Nat} {m : Option Byte} {a : W} {sg : Option (Fin 4)} {dz : Bool} {b : Byte} {bs : List Byte}

theorem dec_ip (hs : Safe s) (hk : k ≤ 65535) : (s.ip + BitVec.ofNat 32 k).toInt = s.ip.toInt + k := by
  have := hs.ip
  rw [toInt_add_eq] <;> rw [ofNat_toInt hk] <;> omega

theorem ReadIByte_dec (hs : Safe s) (hk : k ≤ 65535) (ha : Ahead s (b :: bs) (s.ip + BitVec.ofNat 32 k)) :
    ReadIByte (dec s k m a sg dz) = .ok (b.setWidth 32) (dec s (k + 1) m a sg dz) ∧
      Ahead s bs (s.ip + BitVec.ofNat 32 (k + 1)) := by
  have h1 : (1 : W).toInt = 1 := rfl
  have h2 := dec_ip hs hk
  have h3 := hs.ip
  have he : s.ip + BitVec.ofNat 32 (k + 1) = s.ip + BitVec.ofNat 32 k + 1 := by
    rw [BitVec.ofNat_add, ← BitVec.add_assoc]; rfl
  refine ⟨?_, by rw [he]; exact ha.2⟩
  have : wp ReadIByte (dec s k m a sg dz) fun v s' => v = b.setWidth 32 ∧ s' = dec s (k + 1) m a sg dz := by
    simp only [ReadIByte, wp_bind, wp_getS]
    have hr : Read8 CS (dec s k m a sg dz).ip (dec s k m a sg dz) = .ok (b.setWidth 32) (dec s k m a sg dz) := by
      rw [ha.1]; rfl
    rw [wp_of_eq hr, wp_addI]
    · simp only [wp_modS, wp_pure, dec, he, true_and]
    · simp only [dec]; omega
    · simp only [dec]; omega
  obtain ⟨v, s', e, rfl, rfl⟩ := this
  exact e

theorem wp_ReadIByte (hs : Safe s) (hk : k ≤ 65535) (ha : Ahead s (b :: bs) (s.ip + BitVec.ofNat 32 k)) (Q) :
    wp ReadIByte (dec s k m a sg dz) Q ↔ Q (b.setWidth 32) (dec s (k + 1) m a sg dz) :=
  wp_of_eq (ReadIByte_dec hs hk ha).1

theorem ahead_tail (ha : Ahead s (b :: bs) (s.ip + BitVec.ofNat 32 k)) :
    Ahead s bs (s.ip + BitVec.ofNat 32 (k + 1)) := by
  have he : s.ip + BitVec.ofNat 32 (k + 1) = s.ip + BitVec.ofNat 32 k + 1 := by
    rw [BitVec.ofNat_add, ← BitVec.add_assoc]; rfl
  rw [he]; exact ha.2

theorem wp_Imm16 {lo hi : Byte} (hs : Safe s) (hk : k + 1 ≤ 65535)
    (ha : Ahead s (lo :: hi :: bs) (s.ip + BitVec.ofNat 32 k)) (Q) :
    wp Imm16 (dec s k m a sg dz) Q ↔ Q ((word lo hi).setWidth 32) (dec s (k + 2) m a sg dz) := by
  simp only [Imm16, wp_bind]
  rw [wp_ReadIByte hs (by omega) ha, wp_ReadIByte hs hk (ahead_tail ha), wp_pure, or_shift]
  rfl

end

theorem wp_addAddr {s : St σ} (x : W) (Q) (h1 : -2 ^ 31 ≤ s.addr.toInt + x.toInt) (h2 : s.addr.toInt + x.toInt < 2 ^ 31) :
    wp (addAddr x) s Q ↔ Q () { s with addr := s.addr + x } := by
  simp only [addAddr, wp_bind, wp_getS]
  rw [wp_addI s _ h1 h2, wp_modS]

theorem wp_defaultSeg {s : St σ} (sr) (Q) :
    wp (defaultSeg sr) s Q ↔ Q () { s with seg := some (s.seg.getD sr) } := wp_modS _ _ _

/-- The 16-bit base/index sum of a host state. -/
def baseValS (s : St σ) : Base → W
  | .bxsi => s.bx + s.si | .bxdi => s.bx + s.di | .bpsi => s.bp + s.si | .bpdi => s.bp + s.di
  | .si => s.si | .di => s.di | .bp => s.bp | .bx => s.bx | .none => 0

theorem t16_baseValS (s : St σ) (F) (b : Base) : t16 (baseValS s b) = (abs s F).baseVal b := by
  cases b <;> simp only [baseValS, t16_add, Cpu.baseVal, abs] <;> rfl

theorem srIdx_getD (sg : Option SReg) (d : SReg) : (sg.map srIdx).getD (srIdx d) = srIdx (sg.getD d) := by
  cases sg <;> rfl

/-- The state holds the decoded operand `rm`. -/
def RMOk (s : St σ) (rm : RM) : Prop := ∃ b, s.modrm = some b ∧
  match rm with
  | .reg r => b.toNat / 64 = 3 ∧ field b 0 = r
  | .mem seg base disp => b.toNat / 64 ≠ 3 ∧ s.seg = some (srIdx (seg.getD (Cpu.baseSeg base))) ∧
      t16 s.addr = t16 (baseValS s base) + disp ∧ -2 ^ 30 ≤ s.addr.toInt ∧ s.addr.toInt < 2 ^ 30

theorem baseValS_bound {s : St σ} (hs : Safe s) (b : Base) :
    -2 ^ 29 ≤ (baseValS s b).toInt ∧ (baseValS s b).toInt < 2 ^ 29 := by
  have hbx := hs.reg 3
  have hbp := hs.reg 5
  have hsi := hs.reg 6
  have hdi := hs.reg 7
  have h0 : (0 : W).toInt = 0 := rfl
  simp only [St.reg] at hbx hbp hsi hdi
  cases b <;> simp only [baseValS, h0] <;>
    first
    | omega
    | (rw [toInt_add_eq (by omega) (by omega)]; omega)

theorem wp_baseIndex {s : St σ} (hs : Safe s) (rm : Fin 8) (k m a) (sg : Option SReg) (dz) (Q)
    (h1 : -2 ^ 16 ≤ a.toInt) (h2 : a.toInt ≤ 2 ^ 16) :
    wp (baseIndex rm) (dec s k m a (sg.map srIdx) dz) Q ↔
      Q () (dec s k m (a + baseValS s (Base.ofCode rm.val))
        (some (srIdx (sg.getD (Cpu.baseSeg (Base.ofCode rm.val))))) dz) := by
  have hbx := hs.reg 3
  have hbp := hs.reg 5
  have hsi := hs.reg 6
  have hdi := hs.reg 7
  simp only [St.reg] at hbx hbp hsi hdi
  have hB := baseValS_bound hs (Base.ofCode rm.val)
  have two : ∀ (x y : W) (sr : SReg), -2 ^ 28 ≤ x.toInt ∧ x.toInt < 2 ^ 28 → -2 ^ 28 ≤ y.toInt ∧ y.toInt < 2 ^ 28 →
      (wp (do addAddr (← addI x y); defaultSeg (srIdx sr)) (dec s k m a (sg.map srIdx) dz) Q ↔
      Q () (dec s k m (a + (x + y)) (some (srIdx (sg.getD sr))) dz)) := by
    intro x y sr hx hy
    have := toInt_add_eq (a := x) (b := y) (by omega) (by omega)
    rw [wp_bind, wp_addI _ _ (by omega) (by omega), wp_bind, wp_addAddr _ _ (by simp only [dec]; omega) (by simp only [dec]; omega),
      wp_defaultSeg, ← srIdx_getD]
    rfl
  have one : ∀ (x : W) (sr : SReg), -2 ^ 28 ≤ x.toInt ∧ x.toInt < 2 ^ 28 →
      (wp (do addAddr x; defaultSeg (srIdx sr)) (dec s k m a (sg.map srIdx) dz) Q ↔
      Q () (dec s k m (a + x) (some (srIdx (sg.getD sr))) dz)) := by
    intro x sr hx
    rw [wp_bind, wp_addAddr _ _ (by simp only [dec]; omega) (by simp only [dec]; omega),
      wp_defaultSeg, ← srIdx_getD]
    rfl
  rw [baseIndex, wp_bind, wp_getS]
  match rm with
  | 0 => exact two _ _ .ds hbx hsi
  | 1 => exact two _ _ .ds hbx hdi
  | 2 => exact two _ _ .ss hbp hsi
  | 3 => exact two _ _ .ss hbp hdi
  | 4 => exact one _ .ds hsi
  | 5 => exact one _ .ds hdi
  | 6 => exact one _ .ss hbp
  | 7 => exact one _ .ds hbx

theorem baseValS_dec (s : St σ) (k m a sg dz b) : baseValS (dec s k m a sg dz) b = baseValS s b := by
  cases b <;> rfl

theorem abs_dec (s : St σ) (F k m a sg dz) :
    abs (dec s k m a sg dz) F = { abs s F with ip := (abs s F).ip + BitVec.ofNat 16 k } := by
  simp only [abs, dec, t16_add]
  congr 1
  simp [t16, BitVec.setWidth_ofNat_of_le]

theorem setWidth8_32 (b : Byte) : (b.setWidth 32 : W).setWidth 8 = b :=
  BitVec.setWidth_setWidth_of_le b (by omega)

theorem t16_zext (x : Word) : t16 (x.setWidth 32) = x := BitVec.setWidth_setWidth_of_le x (by omega)

theorem t16_schar (b : Byte) : t16 (schar (b.setWidth 32)) = b.signExtend 16 := by
  rw [schar, setWidth8_32]
  apply BitVec.eq_of_getLsbD_eq
  intro i hi
  simp only [BitVec.getLsbD_setWidth, BitVec.getLsbD_signExtend, hi, decide_true, Bool.true_and]
  have : i < 32 := by omega
  simp [this]

theorem ModRM_wp {s : St σ} (hs : Safe s) {k : Nat} {b : Byte} {rest rest' : List Byte} {sg : Option SReg} {rm : RM}
    {dz : Bool} (hk : k + (b :: rest).length = 8)
    (ha : Ahead s (b :: rest) (s.ip + BitVec.ofNat 32 k)) (hd : decodeRM sg b rest = some (rm, rest')) :
    wp ModRM (dec s k none 0 (sg.map srIdx) dz) fun _ s' => ∃ k' a' sg',
      s' = dec s k' (some b) a' sg' dz ∧ k' + rest'.length = 8 ∧
      Ahead s rest' (s.ip + BitVec.ofNat 32 k') ∧ RMOk s' rm := by
  simp only [List.length_cons] at hk
  have h0 : (0 : W).toInt = 0 := rfl
  simp only [ModRM, wp_bind, wp_getS]
  rw [wp_assertM _ (by rfl), wp_ReadIByte hs (by omega) ha, wp_modS, setWidth8_32]
  have ha1 := ahead_tail ha
  have hb := b.isLt
  have hst : ({ dec s (k + 1) none 0 (sg.map srIdx) dz with modrm := some b } : St σ) =
    dec s (k + 1) (some b) 0 (sg.map srIdx) dz := rfl
  rw [hst]
  have hadd : ∀ (x : W) (k : Nat) (Q : Unit → St σ → Prop), -2 ^ 16 ≤ x.toInt → x.toInt ≤ 2 ^ 16 →
      (wp (addAddr x) (dec s k (some b) 0 (sg.map srIdx) dz) Q ↔ Q () (dec s k (some b) x (sg.map srIdx) dz)) := by
    intro x k Q h1 h2
    rw [wp_addAddr]
    · have : (0 : W) + x = x := BitVec.zero_add x
      simp only [dec, this]
    · simp only [dec]; omega
    · simp only [dec]; omega
  have hw : ∀ lo hi, -2 ^ 16 ≤ ((word lo hi).setWidth 32 : W).toInt ∧ ((word lo hi).setWidth 32 : W).toInt ≤ 2 ^ 16 := by
    intro lo hi
    have := (word lo hi).isLt
    rw [zext_toInt (by omega)]; omega
  have hf : (field b 0).val = b.toNat % 8 := by simp [field]
  have hmod : b.toNat / 64 = 0 ∨ b.toNat / 64 = 1 ∨ b.toNat / 64 = 2 ∨ b.toNat / 64 = 3 := by omega
  -- the base/index step
  have hbi : ∀ (x : W) (k' : Nat) (rest' : List Byte) (d : Word), b.toNat / 64 ≠ 3 →
      -2 ^ 16 ≤ x.toInt → x.toInt ≤ 2 ^ 16 → t16 x = d →
      k' + rest'.length = 8 → Ahead s rest' (s.ip + BitVec.ofNat 32 k') →
      wp (baseIndex (field b 0)) (dec s k' (some b) x (sg.map srIdx) dz) fun _ s' => ∃ k' a' sg',
        s' = dec s k' (some b) a' sg' dz ∧ k' + rest'.length = 8 ∧
        Ahead s rest' (s.ip + BitVec.ofNat 32 k') ∧ RMOk s' (.mem sg (Base.ofCode (b.toNat % 8)) d) := by
    intro x k' rest' d h3 hx1 hx2 hxd hk' ha'
    rw [← hf]
    have hB := baseValS_bound hs (Base.ofCode (field b 0).val)
    have hx := toInt_add_eq (a := x) (b := baseValS s (Base.ofCode (field b 0).val)) (by omega) (by omega)
    rw [wp_baseIndex hs _ _ _ _ _ _ _ hx1 hx2]
    refine ⟨k', _, _, rfl, hk', ha', b, rfl, h3, rfl, ?_, ?_, ?_⟩
    · rw [baseValS_dec]
      simp only [dec, t16_add, hxd]
      rw [BitVec.add_comm]
    · simp only [dec]; omega
    · simp only [dec]; omega
  rcases hmod with h | h | h | h
  · simp only [h]
    by_cases h6 : b.toNat % 8 = 6
    · have h6' : field b 0 = 6 := Fin.ext (by rw [hf, h6]; rfl)
      rw [if_pos h6']
      match rest, hd, ha1, hk with
      | lo :: hi :: rest, hd, ha1, hk =>
        simp only [decodeRM, h, h6] at hd
        cases hd
        simp only [List.length_cons] at hk
        rw [wp_bind, wp_Imm16 hs (by omega) ha1, wp_bind, hadd _ _ _ (hw lo hi).1 (hw lo hi).2, wp_defaultSeg]
        have := hw lo hi
        refine ⟨k + 1 + 2, _, _, rfl, by omega, ahead_tail (ahead_tail ha1), b, rfl, by omega, ?_, ?_, ?_, ?_⟩
        · simp only [dec, Cpu.baseSeg, ← srIdx_getD]; rfl
        · simp only [dec, baseValS, t16_zext]; exact (BitVec.zero_add _).symm
        · simp only [dec]; omega
        · simp only [dec]; omega
      | [], hd, _, _ => simp [decodeRM, h, h6] at hd
      | [_], hd, _, _ => simp [decodeRM, h, h6] at hd
    · have h6' : field b 0 ≠ 6 := by
        intro h'; apply h6; rw [← hf, h']; rfl
      rw [if_neg h6']
      simp only [decodeRM, h, h6] at hd
      cases hd
      exact hbi 0 (k + 1) _ _ (by omega) (by omega) (by omega) rfl (by omega) ha1
  · simp only [h]
    match rest, hd, ha1, hk with
    | d :: rest, hd, ha1, hk =>
      simp only [decodeRM, h] at hd
      cases hd
      simp only [List.length_cons] at hk
      have := schar_toInt (d.setWidth 32)
      rw [wp_bind, wp_ReadIByte hs (by omega) ha1, wp_bind, hadd _ _ _ (by omega) (by omega)]
      exact hbi _ (k + 1 + 1) _ _ (by omega) (by omega) (by omega) (t16_schar d) (by omega) (ahead_tail ha1)
    | [], hd, _, _ => simp [decodeRM, h] at hd
  · simp only [h]
    match rest, hd, ha1, hk with
    | lo :: hi :: rest, hd, ha1, hk =>
      simp only [decodeRM, h] at hd
      cases hd
      simp only [List.length_cons] at hk
      rw [wp_bind, wp_Imm16 hs (by omega) ha1, wp_bind, hadd _ _ _ (hw lo hi).1 (hw lo hi).2]
      have := hw lo hi
      exact hbi _ (k + 1 + 2) _ _ (by omega) (by omega) (by omega) (t16_zext _) (by omega)
        (ahead_tail (ahead_tail ha1))
    | [], hd, _, _ => simp [decodeRM, h] at hd
    | [_], hd, _, _ => simp [decodeRM, h] at hd
  · simp only [h, wp_pure]
    simp only [decodeRM, h] at hd
    cases hd
    exact ⟨k + 1, _, _, rfl, by omega, ha1, b, rfl, by omega, rfl⟩

/-! ## Reading and writing operands -/

theorem t8_sshiftRight8 (v : W) : t8 (v.sshiftRight 8) = Cpu.hi (t16 v) := t8_sshiftRight v

theorem field_lt4 (r : Fin 8) (h : ¬ 4 ≤ r.val) : (⟨r.val % 4, by omega⟩ : Fin 8) = r := by
  apply Fin.ext; simp only; omega

theorem reg8_abs (s : St σ) (F) (r : Fin 8) :
    (abs s F).reg8 r = if 4 ≤ r.val then Cpu.hi (t16 (s.reg ⟨r.val % 4, by omega⟩))
      else Cpu.lo (t16 (s.reg ⟨r.val % 4, by omega⟩)) := by
  match r with
  | 0 | 1 | 2 | 3 | 4 | 5 | 6 | 7 => rfl

/-- `ReadReg`: the low bits of the result are the register. -/
theorem ReadReg_eq (s : St σ) (F) (r : Fin 8) : ∃ v, ReadReg r s = .ok v s ∧
    (s.dsize = true → v = s.reg r ∧ t16 v = (abs s F).reg16 r) ∧ (s.dsize = false → t8 v = (abs s F).reg8 r) := by
  by_cases h : s.dsize = true
  · exact ⟨_, by simp only [ReadReg, h, if_true], fun _ => ⟨rfl, (abs_reg s F r).symm⟩, by simp [h]⟩
  · refine ⟨_, by simp only [ReadReg, h]; rfl, by simp [h], fun _ => ?_⟩
    rw [reg8_abs]
    by_cases h4 : 4 ≤ r.val
    · simp only [h4, if_true]; exact t8_sshiftRight _
    · simp only [h4, if_false, BitVec.sshiftRight_zero]; exact t8_eq_lo _

theorem t16_lo_write (x v : W) : t16 ((x &&& 0xff00) ||| (v &&& 0xff)) = Cpu.hi (t16 x) ++ t8 v := by
  apply BitVec.eq_of_getLsbD_eq
  intro i hi
  have e1 : (0xff00 : W) = (0xff00#32) := rfl
  have : (0xff00 : W).getLsbD i = decide (8 ≤ i) := by
    have : ∀ j : Fin 16, (0xff00 : W).getLsbD j = decide (8 ≤ j.val) := by decide
    exact this ⟨i, hi⟩
  have h2 : (0xff : W).getLsbD i = decide (i < 8) := by
    have : ∀ j : Fin 16, (0xff : W).getLsbD j = decide (j.val < 8) := by decide
    exact this ⟨i, hi⟩
  simp only [BitVec.getLsbD_setWidth, BitVec.getLsbD_or, BitVec.getLsbD_and, this, h2, hi, decide_true, Bool.true_and,
    BitVec.getLsbD_append, Cpu.hi, BitVec.getLsbD_extractLsb']
  by_cases h8 : i < 8
  · have : ¬ 8 ≤ i := by omega
    simp [h8, this]
  · have h3 : 8 ≤ i := by omega
    have h4 : i - 8 < 8 := by omega
    have h5 : 8 + (i - 8) = i := by omega
    simp [h8, h3, h4, h5, hi]

theorem t16_hi_write (x v : W) : t16 ((x &&& 0xff) ||| v <<< 8) = t8 v ++ Cpu.lo (t16 x) := by
  apply BitVec.eq_of_getLsbD_eq
  intro i hi
  have h2 : (255#32).getLsbD i = decide (i < 8) := by
    have : ∀ j : Fin 16, (0xff : W).getLsbD j = decide (j.val < 8) := by decide
    exact this ⟨i, hi⟩
  have h32 : i < 32 := by omega
  simp only [BitVec.getLsbD_setWidth, BitVec.getLsbD_or, BitVec.getLsbD_and, hi, decide_true, Bool.true_and,
    BitVec.getLsbD_append, Cpu.lo, BitVec.getLsbD_shiftLeft, h32]
  by_cases h8 : i < 8
  · simp [h8, h2]
  · have h4 : i - 8 < 8 := by omega
    simp [h8, h4, h2]

theorem setReg8_abs (s : St σ) (F) (r : Fin 8) (v : Byte) :
    (abs s F).setReg8 r v = (abs s F).setReg16 ⟨r.val % 4, by omega⟩
      (if 4 ≤ r.val then v ++ Cpu.lo (t16 (s.reg ⟨r.val % 4, by omega⟩))
       else Cpu.hi (t16 (s.reg ⟨r.val % 4, by omega⟩)) ++ v) := by
  match r with
  | 0 | 1 | 2 | 3 | 4 | 5 | 6 | 7 => rfl

theorem setReg_flags (s : St σ) (r : Fin 8) (v : W) : (s.setReg r v).flags = s.flags := by
  match r with
  | 0 | 1 | 2 | 3 | 4 | 5 | 6 | 7 => rfl

theorem WriteReg_eq (s : St σ) (r : Fin 8) (v : W) : ∃ s', WriteReg r v s = .ok () s' ∧ s'.flags = s.flags ∧
    (s.dsize = true → ∀ F, abs s' F = (abs s F).setReg16 r (t16 v)) ∧
    (s.dsize = false → ∀ F, abs s' F = (abs s F).setReg8 r (t8 v)) := by
  by_cases h : s.dsize = true
  · exact ⟨_, by simp only [WriteReg, h, if_true], setReg_flags _ _ _, fun _ F => abs_setReg s F r v, by simp [h]⟩
  · by_cases h4 : 4 ≤ r.val
    · refine ⟨_, by simp only [WriteReg, h, h4, if_true]; rfl, setReg_flags _ _ _, by simp [h], fun _ F => ?_⟩
      rw [setReg8_abs, abs_setReg, if_pos h4, t16_hi_write]
    · refine ⟨_, by simp only [WriteReg, h, h4, if_false]; rfl, setReg_flags _ _ _, by simp [h], fun _ F => ?_⟩
      rw [setReg8_abs, abs_setReg, if_neg h4, t16_lo_write]

theorem theModrm_eq {s : St σ} {b : Byte} (h : s.modrm = some b) : theModrm s = .ok b s := by
  simp only [theModrm, bind_run, getS, h, pure_run]

theorem theSeg_eq {s : St σ} {b} (h : s.seg = some b) : theSeg s = .ok b s := by
  simp only [theSeg, bind_run, getS, h, pure_run]

theorem eff_eq (s : St σ) (F) (base disp) : (abs s F).eff base disp = t16 (baseValS s base) + disp := by
  rw [Cpu.eff, t16_baseValS s F]

/-- `ReadRM` returns the operand in the low bits; a value from memory is zero-extended. -/
theorem ReadRM_eq (s : St σ) (rm : RM) (h : RMOk s rm) : ∃ v, ReadRM s = .ok v s ∧
    (s.dsize = true → ∀ F, t16 v = (abs s F).rm16 rm) ∧ (s.dsize = false → ∀ F, t8 v = (abs s F).rm8 rm) ∧
    ((∃ r : Fin 8, v = s.reg r ∨ v = (s.reg r).sshiftRight 8) ∨ v.toNat < 2 ^ 16) ∧
    (s.dsize = true → match rm with
      | .reg r => v = s.reg r
      | .mem .. => v.toNat < 2 ^ 16) := by
  obtain ⟨b, hm, h⟩ := h
  cases rm with
  | reg r =>
    obtain ⟨h3, rfl⟩ := h
    by_cases hz : s.dsize = true
    · refine ⟨s.reg (field b 0), ?_, fun _ F => (abs_reg s F _).symm, by simp [hz], Or.inl ⟨_, Or.inl rfl⟩, fun _ => rfl⟩
      rw [ReadRM, bind_run, theModrm_eq hm]; simp [h3, ReadReg, hz]
    · refine ⟨(s.reg ⟨(field b 0).val % 4, by omega⟩).sshiftRight (if 4 ≤ (field b 0).val then 8 else 0), ?_, by simp [hz],
        fun _ F => ?_, ?_, by simp [hz]⟩
      · rw [ReadRM, bind_run, theModrm_eq hm]; simp [h3, ReadReg, hz]
      · rw [Cpu.rm8, reg8_abs]
        by_cases h4 : 4 ≤ (field b 0).val
        · simp only [h4, if_true]; exact t8_sshiftRight _
        · simp only [h4, if_false, BitVec.sshiftRight_zero]; exact t8_eq_lo _
      · left
        by_cases h4 : 4 ≤ (field b 0).val
        · exact ⟨⟨(field b 0).val % 4, by omega⟩, Or.inr (by simp only [h4, if_true])⟩
        · exact ⟨⟨(field b 0).val % 4, by omega⟩, Or.inl (by simp only [h4, if_false, BitVec.sshiftRight_zero])⟩
  | mem seg base disp =>
    obtain ⟨h3, hsg, hadr, h1, h2⟩ := h
    have hF : ∀ F, (abs s F).eff base disp = t16 s.addr := fun F => by rw [eff_eq, hadr]
    have F0 : Flags4 := ⟨none, none, none, none⟩
    have hlt : ∀ x : Word, (x.setWidth 32 : W).toNat < 2 ^ 16 := by
      intro x; rw [BitVec.toNat_setWidth]; have := x.isLt; omega
    have hlt8 : ∀ x : Byte, (x.setWidth 32 : W).toNat < 2 ^ 16 := by
      intro x; rw [BitVec.toNat_setWidth]; have := x.isLt; omega
    by_cases hz : s.dsize = true
    · have : ReadRM s = Read16 (srIdx (seg.getD (Cpu.baseSeg base))) s.addr s := by
        rw [ReadRM, bind_run, theModrm_eq hm]; simp only [h3, if_false]
        rw [bind_run, theSeg_eq hsg]; simp [bind_run, getS, hz]
      rw [this]
      have := wp_Read16 s F0 (seg.getD (Cpu.baseSeg base)) s.addr
        (fun v s' => Read16 (srIdx (seg.getD (Cpu.baseSeg base))) s.addr s = .ok v s ∧
          v = ((abs s F0).rd16 ((abs s F0).sreg (seg.getD (Cpu.baseSeg base))) (t16 s.addr)).setWidth 32) (by omega) (by omega)
      have h16 : ∃ v, Read16 (srIdx (seg.getD (Cpu.baseSeg base))) s.addr s = .ok v s ∧
          v = ((abs s F0).rd16 ((abs s F0).sreg (seg.getD (Cpu.baseSeg base))) (t16 s.addr)).setWidth 32 := by
        have := (wp_Read16 s F0 (seg.getD (Cpu.baseSeg base)) s.addr
          (fun v s' => s' = s ∧ v = ((abs s F0).rd16 ((abs s F0).sreg (seg.getD (Cpu.baseSeg base))) (t16 s.addr)).setWidth 32)
          (by omega) (by omega)).2 ⟨rfl, rfl⟩
        obtain ⟨v, s', e, rfl, hv⟩ := this
        exact ⟨v, e, hv⟩
      obtain ⟨v, e, rfl⟩ := h16
      refine ⟨_, e, fun _ F => ?_, by simp [hz], Or.inr (hlt _), fun _ => hlt _⟩
      rw [t16_zext, Cpu.rm16, hF F]; rfl
    · have : ReadRM s = Read8 (srIdx (seg.getD (Cpu.baseSeg base))) s.addr s := by
        rw [ReadRM, bind_run, theModrm_eq hm]; simp only [h3, if_false]
        rw [bind_run, theSeg_eq hsg]; simp [bind_run, getS, hz]
      rw [this]
      refine ⟨_, Read8_eq s F0 _ _, by simp [hz], fun _ F => ?_, Or.inr (hlt8 _), by simp [hz]⟩
      rw [t8, setWidth8_32, Cpu.rm8, hF F]; rfl

/-- `WriteRM` stores the low bits in the operand. -/
theorem WriteRM_eq (s : St σ) (rm : RM) (v : W) (h : RMOk s rm) : ∃ s', WriteRM v s = .ok () s' ∧ s'.flags = s.flags ∧
    (s.dsize = true → ∀ F, abs s' F = (abs s F).setRm16 rm (t16 v)) ∧
    (s.dsize = false → ∀ F, abs s' F = (abs s F).setRm8 rm (t8 v)) := by
  obtain ⟨b, hm, h⟩ := h
  cases rm with
  | reg r =>
    obtain ⟨h3, rfl⟩ := h
    have : WriteRM v s = WriteReg (field b 0) v s := by
      rw [WriteRM, bind_run, theModrm_eq hm]; simp [h3]
    rw [this]
    exact WriteReg_eq s (field b 0) v
  | mem seg base disp =>
    obtain ⟨h3, hsg, hadr, h1, h2⟩ := h
    have hF : ∀ F, (abs s F).eff base disp = t16 s.addr := fun F => by rw [eff_eq, hadr]
    by_cases hz : s.dsize = true
    · have : WriteRM v s = Write16 (srIdx (seg.getD (Cpu.baseSeg base))) s.addr v s := by
        rw [WriteRM, bind_run, theModrm_eq hm]; simp only [h3, if_false]
        rw [bind_run, theSeg_eq hsg]; simp [bind_run, getS, hz]
      rw [this]
      obtain ⟨_, s', e, hs', ha⟩ := Write16_wp s (seg.getD (Cpu.baseSeg base)) s.addr v (by omega) (by omega)
      refine ⟨s', e, by rw [hs'], fun _ F => ?_, by simp [hz]⟩
      rw [ha, Cpu.setRm16, hF F]; rfl
    · have : WriteRM v s = Write8 (srIdx (seg.getD (Cpu.baseSeg base))) s.addr v s := by
        rw [WriteRM, bind_run, theModrm_eq hm]; simp only [h3, if_false]
        rw [bind_run, theSeg_eq hsg]; simp [bind_run, getS, hz]
      rw [this]
      obtain ⟨s', e, hs', ha⟩ := Write8_eq s (seg.getD (Cpu.baseSeg base)) s.addr v
      refine ⟨s', e, by rw [hs'], by simp [hz], fun _ F => ?_⟩
      rw [ha, Cpu.setRm8, hF F]; rfl

end Sim86
