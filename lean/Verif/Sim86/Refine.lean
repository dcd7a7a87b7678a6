import Verif.Sim86.Strings
/-!
# Every instruction of the simulator model implements the specification
-/
namespace Sim86
open I86
variable {σ : Type}

/-- No segment override on a memory operand. -/
def NoOvr : RM → Prop
  | .reg _ => True
  | .mem seg _ _ => seg = none

/-- The host integer the simulator reads for a word operand. -/
def hostRM (s : St σ) : RM → W
  | .reg r => s.reg r
  | rm => ((abs s F0).rm16 rm).setWidth 32

/-- The host integer is the sign extension of its low 16 bits. -/
def SExt (v : W) : Prop := -2 ^ 15 ≤ v.toInt ∧ v.toInt < 2 ^ 15

/-- The host integer is the zero extension of its low 16 bits. -/
def ZExt (v : W) : Prop := v.toNat < 2 ^ 16

/-- Where `sim86.c` is faithful to the processor: the conditions on the host representation of the
operands that instruction `i` needs.  Everything else is unconditional. -/
def Allowed (s : St σ) : Instr → Prop
  | .shift .shl _ rm => NoOvr rm
  | .shift .shr _ rm => NoOvr rm ∧ ZExt (hostRM s rm)
  | .shift .sar _ rm => NoOvr rm ∧ SExt (hostRM s rm)
  | .unary .div rm => NoOvr rm ∧ s.dx = 0 ∧ ZExt s.ax ∧ ZExt (hostRM s rm)
  | .unary .idiv rm => NoOvr rm ∧ s.dx = (if s.ax &&& 0x8000 ≠ 0 then -1 else 0) ∧ SExt s.ax ∧ SExt (hostRM s rm)
  | .unary _ rm => NoOvr rm
  | .incDec _ true rm => NoOvr rm
  | .movRmSeg rm _ => NoOvr rm
  | .movSegRm _ rm => NoOvr rm
  | .movImm true rm _ => NoOvr rm
  | .movAccMem _ seg _ => seg = none
  | .movMemAcc _ seg _ => seg = none
  | .callRm rm => NoOvr rm ∧ ∀ v, ((abs s F0).push v).rm16 rm = (abs s F0).rm16 rm
  | .repMovs _ | .repStos _ | .repeCmpsb | .repneScasb => ZExt s.cx
  | _ => True

theorem Rel.mk' {s' : St σ} {F : Flags4} {c : Cpu} (h : abs s' F = c) (hF : FlagsOk F s'.flags) : Rel s' c :=
  ⟨F, h.symm, hF⟩

/-- The segment register of the prefix, if any, is the one of the decoded operand. -/
theorem decodeRM_seg {sg : Option SReg} {b : Byte} {rest rest' : List Byte} {rm : RM}
    (h : decodeRM sg b rest = some (rm, rest')) : (∃ r, rm = .reg r) ∨ ∃ base d, rm = .mem sg base d := by
  simp only [decodeRM] at h
  split at h
  · cases h; exact Or.inl ⟨_, rfl⟩
  · split at h
    · split at h
      · split at h
        · cases h; exact Or.inr ⟨_, _, rfl⟩
        · cases h
      · cases h; exact Or.inr ⟨_, _, rfl⟩
    · split at h
      · split at h
        · cases h; exact Or.inr ⟨_, _, rfl⟩
        · cases h
      · split at h
        · cases h; exact Or.inr ⟨_, _, rfl⟩
        · cases h

theorem noOvr_none {sg : Option SReg} {b : Byte} {rest rest' : List Byte} {rm : RM}
    (h : decodeRM sg b rest = some (rm, rest')) (hs : segOk sg rm = true) (hn : NoOvr rm) : sg = none := by
  rcases decodeRM_seg h with ⟨r, rfl⟩ | ⟨base, d, rfl⟩
  · simpa [segOk] using hs
  · exact hn

section
variable {s : St σ} {F : Flags4} {sg : Option SReg} {k : Nat} {rest rest' : List Byte} {i : Instr} {dz : Bool} {c' : Cpu}

/-- The specification state once `n` bytes of the window of eight remain. -/
def cpuAt (s : St σ) (F : Flags4) (rest : List Byte) : Cpu :=
  { abs s F with ip := (abs s F).ip + BitVec.ofNat 16 (8 - rest.length) }

theorem abs_dec_cpuAt {m a sg' dz} (hk : k + rest.length = 8) : abs (dec s k m a sg' dz) F = cpuAt s F rest := by
  have : 8 - rest.length = k := by omega
  rw [abs_dec, cpuAt, this]

/-- Decode a ModRM operand, then go on with `body`. -/
theorem modrm_step (hs : Safe s) (hk : k + rest.length = 8) (ha : Ahead s rest (s.ip + BitVec.ofNat 32 k))
    {kont} (hd : withRM sg rest kont = some (i, rest')) (body : Unit → M σ Unit) (Q : Unit → St σ → Prop)
    (h : ∀ b k2 a2 sg2 rm rest2, k2 + rest2.length = 8 → Ahead s rest2 (s.ip + BitVec.ofNat 32 k2) →
      RMOk (dec s k2 (some b) a2 sg2 dz) rm → (NoOvr rm → sg = none) → kont (field b 3) rm rest2 = some (i, rest') →
      wp (body ()) (dec s k2 (some b) a2 sg2 dz) Q) :
    wp (ModRM >>= body) (dec s k none 0 (sg.map srIdx) dz) Q := by
  cases rest with
  | nil => simp [withRM] at hd
  | cons b rest1 =>
    simp only [withRM] at hd
    cases hrm : decodeRM sg b rest1 with
    | none => rw [hrm] at hd; cases hd
    | some p =>
      obtain ⟨rm, rest2⟩ := p
      rw [hrm] at hd
      simp only at hd
      split at hd
      · rename_i hseg
        rw [wp_bind]
        refine wp_mono (ModRM_wp hs hk ha hrm) ?_
        rintro _ s' ⟨k2, a2, sg2, rfl, hk2, ha2, hok⟩
        exact h b k2 a2 sg2 rm rest2 hk2 ha2 hok (noOvr_none hrm hseg) hd
      · cases hd

/-! ### ALU operations -/

theorem ReadRM_val {d : St σ} {rm : RM} (h : RMOk d rm) : ∃ v, ReadRM d = .ok v d ∧
    (∀ F, if d.dsize then t16 v = (abs d F).rd true rm else t8 v = Cpu.lo ((abs d F).rd false rm)) ∧
    (d.dsize = true → v = hostRM d rm) := by
  obtain ⟨v, e, h16, h8, _, hm⟩ := ReadRM_eq d rm h
  refine ⟨v, e, fun F => ?_, ?_⟩
  · cases hz : d.dsize with
    | true => simpa [Cpu.rd] using h16 hz F
    | false =>
      simp only [Bool.false_eq_true, if_false, Cpu.rd]
      rw [h8 hz F, Cpu.lo, BitVec.setWidth_setWidth_of_le _ (by omega), BitVec.setWidth_eq]
  · intro hz
    have h1 := hm hz
    cases rm with
    | reg r => exact h1
    | mem a b c =>
      simp only [hostRM]
      apply BitVec.eq_of_toNat_eq
      rw [← h16 hz F0, BitVec.toNat_setWidth, BitVec.toNat_setWidth]
      simp only at h1
      omega

theorem ReadReg_val (d : St σ) (r : Fin 8) : ∃ v, ReadReg r d = .ok v d ∧
    ∀ F, if d.dsize then t16 v = (abs d F).rd true (.reg r) else t8 v = Cpu.lo ((abs d F).rd false (.reg r)) := by
  obtain ⟨v, e, _, _⟩ := ReadReg_eq d F0 r
  refine ⟨v, e, fun F => ?_⟩
  obtain ⟨v', e', h16, h8⟩ := ReadReg_eq d F r
  rw [e] at e'
  cases e'
  cases hz : d.dsize with
  | true => simpa [Cpu.rd, Cpu.rm16] using (h16 hz).2
  | false =>
    simp only [Bool.false_eq_true, if_false, Cpu.rd, Cpu.rm8]
    rw [h8 hz, Cpu.lo, BitVec.setWidth_setWidth_of_le _ (by omega), BitVec.setWidth_eq]

theorem RMOk_reg {d : St σ} (r : Fin 8) : RMOk { d with modrm := some (0xc0#8 ||| BitVec.ofNat 8 r.val) } (.reg r) := by
  have : ∀ r : Fin 8, (0xc0#8 ||| BitVec.ofNat 8 r.val).toNat / 64 = 3 ∧ field (0xc0#8 ||| BitVec.ofNat 8 r.val) 0 = r := by
    decide
  exact ⟨_, rfl, this r⟩

theorem RMOk_reg' {d : St σ} (r : Fin 8) : RMOk { d with modrm := some (regModrm r) } (.reg r) := by
  have : ∀ r : Fin 8, (regModrm r).toNat / 64 = 3 ∧ field (regModrm r) 0 = r := by decide
  exact ⟨_, rfl, this r⟩

theorem ALUOp_wp (hs : Safe s) (hF : FlagsOk F s.flags) (hk : k + rest.length = 8)
    (ha : Ahead s rest (s.ip + BitVec.ofNat 32 k)) (op : Fin 8) (swap : Bool)
    (hd : withRM sg rest (fun r rm rest =>
      some (if swap then .aluRegRm (opOf op) dz r rm else .aluRmReg (opOf op) dz rm r, rest)) = some (i, rest'))
    (hx : Cpu.exec .sim i (cpuAt s F rest') = .next c') :
    wp (ALUOp op swap) (dec s k none 0 (sg.map srIdx) dz) fun _ s' => Rel s' c' := by
  refine modrm_step hs hk ha hd _ _ ?_
  intro b k2 a2 sg2 rm rest2 hk2 ha2 hok hov hkont
  simp only [Option.some.injEq, Prod.mk.injEq] at hkont
  obtain ⟨hi, rfl⟩ := hkont
  rw [← abs_dec_cpuAt (m := some b) (a := a2) (sg' := sg2) (dz := dz) hk2] at hx
  generalize hdd : dec s k2 (some b) a2 sg2 dz = d at *
  have hm : d.modrm = some b := by rw [← hdd]; rfl
  have hz : d.dsize = dz := by rw [← hdd]; rfl
  have hFd : FlagsOk F d.flags := by rw [← hdd]; exact hF
  simp only [wp_bind]
  rw [wp_of_eq (theModrm_eq hm)]
  obtain ⟨v, e, hv, _⟩ := ReadRM_val hok
  rw [wp_of_eq e]
  obtain ⟨u, e2, hu⟩ := ReadReg_val d (field b 3)
  rw [wp_of_eq e2]
  cases swap with
  | true =>
    simp only [if_true, wp_bind, wp_modS] at hi ⊢
    subst hi
    refine DoOp_wp (F := F) (rm := .reg (field b 3)) (by exact hFd) (Or.inl (RMOk_reg (d := d) _)) hz ?_ ?_ hx
    · have := hu F; rw [hz] at this; revert this; cases dz <;> exact id
    · have := hv F; rw [hz] at this; revert this; cases dz <;> exact id
  | false =>
    simp only [Bool.false_eq_true, if_false] at hi ⊢
    subst hi
    refine DoOp_wp (F := F) hFd (Or.inl hok) hz ?_ ?_ hx
    · have := hv F; rw [hz] at this; revert this; cases dz <;> exact id
    · have := hu F; rw [hz] at this; revert this; cases dz <;> exact id

theorem opOf_field (n : Byte) : opOf (field n 3) = AluOp.ofCode (n.toNat / 8 % 8) := by
  simp only [opOf, field, Nat.shiftRight_eq_div_pow]

/-! ### Immediates -/

/-- The immediate operand read by the simulator (`Imm16` or a sign-extended byte). -/
theorem imm_step (hs : Safe s) (hk : k + rest.length = 8) (ha : Ahead s rest (s.ip + BitVec.ofNat 32 k)) (w : Bool)
    {kont} (hd : decodeImm w rest kont = some (i, rest')) {m a sg'} (Q : W → St σ → Prop)
    (h : ∀ v k2 imm rest2, k2 + rest2.length = 8 → t16 v = imm →
      kont imm rest2 = some (i, rest') → Q v (dec s k2 m a sg' dz)) :
    wp (immOperand w) (dec s k m a sg' dz) Q := by
  cases w with
  | true =>
    simp only [decodeImm, immOperand, if_true] at hd ⊢
    match rest, hd, ha, hk with
    | lo :: hi :: rest, hd, ha, hk =>
      simp only [List.length_cons] at hk
      rw [wp_Imm16 hs (by omega) ha]
      exact h _ _ _ _ (by omega) (t16_zext _) hd
    | [], hd, _, _ => cases hd
    | [_], hd, _, _ => cases hd
  | false =>
    simp only [decodeImm, immOperand, Bool.false_eq_true, if_false] at hd ⊢
    match rest, hd, ha, hk with
    | b :: rest, hd, ha, hk =>
      simp only [List.length_cons] at hk
      rw [wp_bind, wp_ReadIByte hs (by omega) ha, wp_pure]
      exact h _ _ _ _ (by omega) (t16_schar _) hd
    | [], hd, _, _ => cases hd

theorem lo_imm {v : W} {imm : Word} (h : t16 v = imm) (w : Bool) :
    if w then t16 v = imm else t8 v = Cpu.lo imm := by
  cases w with
  | true => exact h
  | false => rw [← h]; exact t8_eq_lo v

/-- Opcodes 04/05, 0C/0D, ...: accumulator with immediate. -/
theorem aluAcc_wp (hs : Safe s) (hF : FlagsOk F s.flags) (hk : k + rest.length = 8)
    (ha : Ahead s rest (s.ip + BitVec.ofNat 32 k)) (op : Fin 8) (w : Bool) {sg'}
    (hd : decodeImm w rest (fun imm rest => some (.aluImm (opOf op) w (.reg 0) imm, rest)) = some (i, rest'))
    (hx : Cpu.exec .sim i (cpuAt s F rest') = .next c') :
    wp (do
      let imm ← immOperand w
      modS fun s => { s with modrm := some 0xc0#8 }
      DoOp op (← getReg AX) imm) (dec s k none 0 sg' w) fun _ s' => Rel s' c' := by
  rw [wp_bind]
  refine imm_step hs hk ha w hd _ ?_
  intro v k2 imm rest2 hk2 hv hkont
  simp only [Option.some.injEq, Prod.mk.injEq] at hkont
  obtain ⟨rfl, rfl⟩ := hkont
  simp only [wp_bind, wp_modS, wp_getReg]
  rw [← abs_dec_cpuAt (m := none) (a := 0) (sg' := sg') (dz := w) hk2] at hx
  have hok := RMOk_reg (d := dec s k2 none 0 sg' w) 0
  refine DoOp_wp (F := F) (rm := .reg 0) (by exact hF) (Or.inl hok) rfl ?_ (lo_imm hv w) hx
  cases w with
  | true => exact (abs_reg (dec s k2 none 0 sg' true) F 0).symm
  | false =>
    simp only [Bool.false_eq_true, if_false, Cpu.rd, Cpu.lo, Cpu.rm8]
    rw [BitVec.setWidth_setWidth_of_le _ (by omega), BitVec.setWidth_eq]
    exact t8_eq_lo _

/-- Opcodes 80..83. -/
theorem aluImm_wp (hs : Safe s) (hF : FlagsOk F s.flags) (hk : k + rest.length = 8)
    (ha : Ahead s rest (s.ip + BitVec.ofNat 32 k)) (wi : Bool) 
    (hd : withRM sg rest (fun r rm rest => decodeImm wi rest fun imm rest =>
      some (.aluImm (AluOp.ofCode r.val) dz rm imm, rest)) = some (i, rest'))
    (hx : Cpu.exec .sim i (cpuAt s F rest') = .next c') :
    wp (do
      ModRM
      let imm ← immOperand wi
      DoOp (field (← theModrm) 3) (← ReadRM) imm) (dec s k none 0 (sg.map srIdx) dz) fun _ s' => Rel s' c' := by
  refine modrm_step hs hk ha hd _ _ ?_
  intro b k2 a2 sg2 rm rest2 hk2 ha2 hok hov hkont
  rw [wp_bind]
  refine imm_step hs hk2 ha2 wi hkont _ ?_
  intro v k3 imm rest3 hk3 hv hkont
  simp only [Option.some.injEq, Prod.mk.injEq] at hkont
  obtain ⟨rfl, rfl⟩ := hkont
  rw [← abs_dec_cpuAt (m := some b) (a := a2) (sg' := sg2) (dz := dz) hk3] at hx
  have hok' : RMOk (dec s k3 (some b) a2 sg2 dz) rm := hok
  have hm : (dec s k3 (some b) a2 sg2 dz).modrm = some b := rfl
  obtain ⟨u, e, hu, _⟩ := ReadRM_val hok'
  rw [wp_bind, wp_of_eq (theModrm_eq hm), wp_bind, wp_of_eq e]
  refine DoOp_wp (F := F) (by exact hF) (Or.inl hok') rfl ?_ (lo_imm hv dz) hx
  have := hu F
  revert this
  cases dz <;> exact id

/-! ### Moves -/

theorem MOV_wp (hs : Safe s) (hF : FlagsOk F s.flags) (hk : k + rest.length = 8)
    (ha : Ahead s rest (s.ip + BitVec.ofNat 32 k)) (swap : Bool)
    (hd : withRM sg rest (fun r rm rest =>
      some (if swap then .movRegRm dz r rm else .movRmReg dz rm r, rest)) = some (i, rest'))
    (hx : Cpu.exec .sim i (cpuAt s F rest') = .next c') :
    wp (MOV swap) (dec s k none 0 (sg.map srIdx) dz) fun _ s' => Rel s' c' := by
  refine modrm_step hs hk ha hd _ _ ?_
  intro b k2 a2 sg2 rm rest2 hk2 ha2 hok hov hkont
  simp only [Option.some.injEq, Prod.mk.injEq] at hkont
  obtain ⟨hi, rfl⟩ := hkont
  rw [← abs_dec_cpuAt (m := some b) (a := a2) (sg' := sg2) (dz := dz) hk2] at hx
  generalize hdd : dec s k2 (some b) a2 sg2 dz = d at *
  have hm : d.modrm = some b := by rw [← hdd]; rfl
  have hz : d.dsize = dz := by rw [← hdd]; rfl
  have hFd : FlagsOk F d.flags := by rw [← hdd]; exact hF
  simp only [wp_bind]
  rw [wp_of_eq (theModrm_eq hm)]
  cases swap with
  | true =>
    simp only [if_true, wp_bind] at hi ⊢
    subst hi
    obtain ⟨v, e, h16, h8, _⟩ := ReadRM_eq d rm hok
    rw [wp_of_eq e]
    obtain ⟨s', e', hf, g16, g8⟩ := WriteReg_eq d (field b 3) v
    rw [wp_of_eq e']
    simp only [Cpu.exec, Out.next.injEq] at hx
    subst hx
    refine Rel.mk' ?_ (by rw [hf]; exact hFd)
    cases dz with
    | true => rw [g16 hz, h16 hz F]; rfl
    | false => rw [g8 hz, h8 hz F]; rfl
  | false =>
    simp only [Bool.false_eq_true, if_false, wp_bind] at hi ⊢
    subst hi
    obtain ⟨v, e, h16, h8⟩ := ReadReg_eq d F (field b 3)
    rw [wp_of_eq e]
    obtain ⟨s', e', hf, g16, g8⟩ := WriteRM_eq d rm v hok
    rw [wp_of_eq e']
    simp only [Cpu.exec, Out.next.injEq] at hx
    subst hx
    refine Rel.mk' ?_ (by rw [hf]; exact hFd)
    cases dz with
    | true => rw [g16 hz, (h16 hz).2]; rfl
    | false => rw [g8 hz, h8 hz]; rfl

/-- A store of a computed value through a word operand. -/
theorem WriteRM_rel {d : St σ} {rm : RM} {v : W} (hFd : FlagsOk F d.flags) (hok : RMOk d rm) (hz : d.dsize = true) {V : Word}
    (hv : t16 v = V) : wp (WriteRM v) d fun _ s' => Rel s' ((abs d F).setRm16 rm V) := by
  obtain ⟨s', e', hf, g16, _⟩ := WriteRM_eq d rm v hok
  rw [wp_of_eq e']
  refine Rel.mk' (F := F) ?_ (by rw [hf]; exact hFd)
  rw [g16 hz, hv]

/-! ### Shifts -/

theorem cfOf_shiftFlags (res c : W) : cfOf (shiftFlags res c) = decide (c ≠ 0) := by
  unfold shiftFlags
  by_cases h1 : c = 0 <;> by_cases h2 : res = 0 <;>
    simp only [h1, h2, ne_eq, not_true_eq_false, not_false_eq_true, if_true, if_false, decide_true, decide_false] <;> decide

theorem zfOf_shiftFlags (res c : W) : zfOf (shiftFlags res c) = decide (res = 0) := by
  unfold shiftFlags
  by_cases h1 : c = 0 <;> by_cases h2 : res = 0 <;>
    simp only [h1, h2, ne_eq, not_true_eq_false, not_false_eq_true, if_true, if_false, decide_true, decide_false] <;> decide

theorem and_one_ne (x : W) : decide (x &&& 1 ≠ 0) = x.getLsbD 0 := by
  have : (1 : W) = BitVec.twoPow 32 0 := rfl
  rw [this, Bool.eq_iff_iff, decide_eq_true_eq, and_twoPow_ne_zero _ _ (by omega)]

theorem and_8000_ne (x : W) : decide (x &&& 0x8000 ≠ 0) = (t16 x).msb := by
  have : (0x8000 : W) = BitVec.twoPow 32 15 := rfl
  rw [this, msb_setWidth 16 (by omega) (by omega), Bool.eq_iff_iff, decide_eq_true_eq, and_twoPow_ne_zero _ _ (by omega)]

theorem t16_shiftLeft (v : W) (a : Nat) : t16 (v <<< a) = t16 v <<< a := by
  apply BitVec.eq_of_getLsbD_eq
  intro i hi
  simp [hi]

theorem t16_ushiftRight {v : W} (hv : ZExt v) (a : Nat) : t16 (v >>> a) = t16 v >>> a := by
  apply BitVec.eq_of_toNat_eq
  have : v.toNat < 2 ^ 16 := hv
  rw [BitVec.toNat_setWidth, BitVec.toNat_ushiftRight, BitVec.toNat_ushiftRight, BitVec.toNat_setWidth,
    Nat.mod_eq_of_lt this, Nat.mod_eq_of_lt]
  exact Nat.lt_of_le_of_lt (Nat.shiftRight_le _ _) this

theorem SExt.eq {v : W} (hv : SExt v) : v = (t16 v).signExtend 32 := by
  apply BitVec.eq_of_toInt_eq
  rw [BitVec.toInt_signExtend_of_le (by omega), BitVec.toInt_setWidth]
  obtain ⟨h1, h2⟩ := hv
  have : (v.toNat : Int).bmod (2 ^ 16) = v.toInt := by
    rw [BitVec.toInt_eq_toNat_cond] at *
    split at h1
    all_goals
      rename_i h
      simp only [h, if_true, if_false] at *
    · apply Int.bmod_eq_of_le <;> omega
    · have e : (v.toNat : Int).bmod (2 ^ 16) = ((v.toNat : Int) - 2 ^ 32).bmod (2 ^ 16) := by
        have := Int.add_mul_bmod_self_left ((v.toNat : Int) - 2 ^ 32) (2 ^ 16) (2 ^ 16)
        rw [← this]; congr 1; omega
      rw [e]
      apply Int.bmod_eq_of_le <;> omega
  rw [this]

theorem t16_sshiftRight {v : W} (hv : SExt v) (a : Nat) : t16 (v.sshiftRight a) = (t16 v).sshiftRight a := by
  conv => lhs; rw [hv.eq]
  apply BitVec.eq_of_getLsbD_eq
  intro i hi
  have h32 : i < 32 := by omega
  simp only [BitVec.getLsbD_setWidth, BitVec.getLsbD_sshiftRight, hi, decide_true, Bool.true_and]
  have h1 : ¬ 32 ≤ i := by omega
  have h2 : ¬ 16 ≤ i := by omega
  simp only [h1, h2, decide_false, Bool.not_false, Bool.true_and, BitVec.getLsbD_signExtend, BitVec.msb_signExtend]
  by_cases h3 : a + i < 16
  · have : a + i < 32 := by omega
    simp [h3, this]
  · by_cases h4 : a + i < 32
    · simp [h3, h4]
    · simp [h3, h4]

theorem getLsb_shr (v : W) (a : Nat) (ha : a < 16) : (v >>> a).getLsbD 0 = (t16 v >>> a).getLsbD 0 := by
  simp [ha]

theorem zext_zero {v : W} (hv : ZExt v) : decide (v = 0) = (t16 v == 0) := by
  have h : v.toNat < 2 ^ 16 := hv
  rw [Bool.eq_iff_iff, decide_eq_true_eq, beq_iff_eq, ← BitVec.toNat_inj, ← BitVec.toNat_inj, BitVec.toNat_setWidth,
    Nat.mod_eq_of_lt h]
  rfl

theorem sext_zero {v : W} (hv : SExt v) : decide (v = 0) = (t16 v == 0) := by
  have h := hv.eq
  rw [Bool.eq_iff_iff, decide_eq_true_eq, beq_iff_eq]
  constructor
  · intro h0; rw [h0]; rfl
  · intro h0; rw [h0] at h; rw [h]; rfl

theorem SExt.shift {v : W} (hv : SExt v) (a : Nat) : SExt (v.sshiftRight a) := by
  obtain ⟨h1, h2⟩ := hv
  constructor
  · rw [BitVec.toInt_sshiftRight, Int.shiftRight_eq_div_pow]
    have : (0 : Int) < (2 ^ a : Nat) := by exact_mod_cast Nat.two_pow_pos a
    rw [Int.le_ediv_iff_mul_le this]
    have h3 : (1 : Int) ≤ (2 ^ a : Nat) := this
    calc -2 ^ 15 * ((2 ^ a : Nat) : Int) ≤ -2 ^ 15 * 1 := by
          apply Int.mul_le_mul_of_nonpos_left (by decide) h3
      _ ≤ v.toInt := by omega
  · rw [BitVec.toInt_sshiftRight, Int.shiftRight_eq_div_pow]
    have : (0 : Int) < (2 ^ a : Nat) := by exact_mod_cast Nat.two_pow_pos a
    rw [Int.ediv_lt_iff_lt_mul this]
    have h3 : (1 : Int) ≤ (2 ^ a : Nat) := this
    calc v.toInt < 2 ^ 15 * 1 := by omega
      _ ≤ 2 ^ 15 * ((2 ^ a : Nat) : Int) := by
          apply Int.mul_le_mul_of_nonneg_left h3 (by decide)

theorem ZExt.shift {v : W} (hv : ZExt v) (a : Nat) : ZExt (v >>> a) := by
  unfold ZExt at *
  rw [BitVec.toNat_ushiftRight]
  exact Nat.lt_of_le_of_lt (Nat.shiftRight_le _ _) hv

/-- The end of a shift: store the result and set the flags. -/
theorem shiftFin_rel {d : St σ} {rm : RM} (hok : RMOk d rm) (hz : d.dsize = true) (res c : W) (V : Word) (cf : Bool) (zf : Flag)
    (hres : t16 res = V) (hc : decide (c ≠ 0) = cf) (hzf : ∀ v, zf = some v → decide (res = 0) = v) :
    wp (do WriteRM res; modS fun s => { s with flags := shiftFlags res c }) d fun _ s' =>
      Rel s' { (abs d F).setRm16 rm V with cf := some cf, zf := zf, sf := none, of := none } := by
  obtain ⟨s', e', hf, g16, _⟩ := WriteRM_eq d rm res hok
  rw [wp_bind, wp_of_eq e', wp_modS]
  refine ⟨⟨some cf, zf, none, none⟩, ?_, ?_⟩
  · have := g16 hz F
    rw [hres] at this
    rw [← this]; rfl
  · constructor
    · intro v hv; cases hv; rw [cfOf_shiftFlags, hc]
    · intro v hv; rw [zfOf_shiftFlags, hzf v hv]
    · intro v hv; cases hv
    · intro v hv; cases hv

/-- Does the host value fit the shift? -/
def ShiftOk (op : ShiftOp) (v : W) : Prop :=
  match op with
  | .shl => True
  | .shr => ZExt v
  | .sar => SExt v

/-- The result and the carry word computed by `sim86.c`. -/
def simShift (op : ShiftOp) (v : W) (a : Nat) : W × W :=
  match op with
  | .shl => (v <<< a, (v <<< (a - 1)) &&& 0x8000)
  | .shr => (v >>> a, (v >>> (a - 1)) &&& 1)
  | .sar => (v.sshiftRight a, (v >>> (a - 1)) &&& 1)

/-- The three shifts of `sim86.c` for a count between 1 and 15. -/
theorem shift_rel {d : St σ} {rm : RM} (hok : RMOk d rm) (hz : d.dsize = true) (op : ShiftOp) (v : W) (a : Nat)
    (ha : 1 ≤ a) (ha' : a < 16) (hv : t16 v = (abs d F).rm16 rm) (hop : ShiftOk op v) {c'}
    (hx : Cpu.shift .sim op a rm (abs d F) = .next c') (res c : W)
    (hres : res = (simShift op v a).1) (hc : c = (simShift op v a).2) :
    wp (do WriteRM res; modS fun s => { s with flags := shiftFlags res c }) d fun _ s' => Rel s' c' := by
  have h0 : a ≠ 0 := by omega
  have h16 : ¬ 16 ≤ a := by omega
  simp only [Cpu.shift, h0, h16, if_false, Out.next.injEq] at hx
  subst hx
  rw [← hv]
  cases op with
  | shl =>
    refine shiftFin_rel hok hz res c _ _ _ ?_ ?_ ?_
    · rw [hres, simShift]; exact t16_shiftLeft v a
    · rw [hc, simShift, and_8000_ne, t16_shiftLeft]; rfl
    · intro v hv; cases hv
  | shr =>
    refine shiftFin_rel hok hz res c _ _ _ ?_ ?_ ?_
    · rw [hres, simShift]; exact t16_ushiftRight hop a
    · rw [hc, simShift, and_one_ne, getLsb_shr _ _ (by omega)]; rfl
    · intro x hx; cases hx; rw [hres, simShift, zext_zero (ZExt.shift hop a), t16_ushiftRight hop]; rfl
  | sar =>
    refine shiftFin_rel hok hz res c _ _ _ ?_ ?_ ?_
    · rw [hres, simShift]; exact t16_sshiftRight hop a
    · rw [hc, simShift, and_one_ne, getLsb_shr _ _ (by omega)]
      have : a - 1 < 16 := by omega
      simp [Cpu.shiftRes, this, BitVec.getElem_sshiftRight]
    · intro x hx; cases hx; rw [hres, simShift, sext_zero (SExt.shift hop a), t16_sshiftRight hop]; rfl


end

end Sim86
