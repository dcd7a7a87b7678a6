import Verif.Sim86.Operand
/-!
# Building blocks of the refinement: ALU, stack, string loops
-/
namespace Sim86
open I86
variable {σ α β : Type}

def F0 : Flags4 := ⟨none, none, none, none⟩

theorem flagsOk_F0 (f : W) : FlagsOk F0 f := by
  constructor <;> intro v h <;> cases h

theorem flagsOk_mk (c z s o : Bool) (F : Flags4) (hc : ∀ v, F.cf = some v → v = c) (hz : ∀ v, F.zf = some v → v = z)
    (hs : ∀ v, F.sf = some v → v = s) (ho : ∀ v, F.of = some v → v = o) : FlagsOk F (mkFlags c z s o) :=
  ⟨fun v h => by rw [cfOf_mk, hc v h], fun v h => by rw [zfOf_mk, hz v h], fun v h => by rw [sfOf_mk, hs v h],
   fun v h => by rw [ofOf_mk, ho v h]⟩

theorem aluRes_nocarry {n} (op : AluOp) (h : op.usesCarry = false) (l r : BitVec n) (c c' : Bool) :
    aluRes op l r c = aluRes op l r c' := by cases op <;> first | rfl | cases h
theorem aluCF_nocarry {n} (op : AluOp) (h : op.usesCarry = false) (l r : BitVec n) (c c' : Bool) :
    aluCF op l r c = aluCF op l r c' := by cases op <;> first | rfl | cases h
theorem aluOF_nocarry {n} (op : AluOp) (h : op.usesCarry = false) (l r : BitVec n) (c c' : Bool) :
    aluOF op l r c = aluOF op l r c' := by cases op <;> first | rfl | cases h

/-- Changing the flags of the specification state only. -/
def setF (c : Cpu) (F : Flags4) : Cpu := { c with cf := F.cf, zf := F.zf, sf := F.sf, of := F.of }

theorem abs_setF (s : St σ) (F F' : Flags4) : setF (abs s F) F' = abs s F' := rfl

theorem setRm16_setF (c : Cpu) (F : Flags4) (rm v) : (setF c F).setRm16 rm v = setF (c.setRm16 rm v) F := by
  cases rm with
  | reg r =>
    match r with
    | 0 | 1 | 2 | 3 | 4 | 5 | 6 | 7 => rfl
  | mem sg b d => cases b <;> rcases sg with _ | ⟨_ | _ | _ | _⟩ <;> rfl

theorem setRm8_setF (c : Cpu) (F : Flags4) (rm v) : (setF c F).setRm8 rm v = setF (c.setRm8 rm v) F := by
  cases rm with
  | reg r =>
    match r with
    | 0 | 1 | 2 | 3 | 4 | 5 | 6 | 7 => rfl
  | mem sg b d => cases b <;> rcases sg with _ | ⟨_ | _ | _ | _⟩ <;> rfl

/-- The 16-bit zero test of a byte result is right except for ADD, ADC and SBB. -/
theorem byte_zf (op : Fin 8) (f l r : W)
    (h : ¬ (opOf op = .add ∨ opOf op = .adc ∨ opOf op = .sbb)) :
    ((opRes op f (l &&& 0xff) (r &&& 0xff)).1.setWidth 16 == 0) =
      (aluRes (opOf op) (l.setWidth 8) (r.setWidth 8) (cfOf f) == 0) := by
  have e8 := opRes_fst 8 (by omega) op f (l &&& 0xff) (r &&& 0xff)
  rw [setWidth_and_ff, setWidth_and_ff] at e8
  rw [← e8]
  have hl := toNat_and_ff l
  have hr := toNat_and_ff r
  generalize l &&& 0xff = x at *
  generalize r &&& 0xff = y at *
  have hx : x.toNat < 2 ^ 8 := by omega
  have hy : y.toNat < 2 ^ 8 := by omega
  have key : ∀ z : W, z.toNat < 2 ^ 8 → (z.setWidth 16 == (0 : BitVec 16)) = (z.setWidth 8 == (0 : BitVec 8)) := by
    intro z hz
    rw [Bool.eq_iff_iff, beq_iff_eq, beq_iff_eq, ← BitVec.toNat_inj, ← BitVec.toNat_inj, BitVec.toNat_setWidth,
      BitVec.toNat_setWidth]
    show z.toNat % 2 ^ 16 = 0 ↔ z.toNat % 2 ^ 8 = 0
    omega
  have sub : ((x - y).setWidth 16 == (0 : BitVec 16)) = ((x - y).setWidth 8 == (0 : BitVec 8)) := by
    rw [Bool.eq_iff_iff, beq_iff_eq, beq_iff_eq, ← BitVec.toNat_inj, ← BitVec.toNat_inj, BitVec.toNat_setWidth,
      BitVec.toNat_setWidth, BitVec.toNat_sub]
    show (2 ^ 32 - y.toNat + x.toNat) % 2 ^ 32 % 2 ^ 16 = 0 ↔ (2 ^ 32 - y.toNat + x.toNat) % 2 ^ 32 % 2 ^ 8 = 0
    omega
  match op with
  | 0 => exact absurd (Or.inl rfl) h
  | 2 => exact absurd (Or.inr (Or.inl rfl)) h
  | 3 => exact absurd (Or.inr (Or.inr rfl)) h
  | 1 => exact key _ (by rw [show (opRes 1 f x y).1 = x ||| y from rfl, BitVec.toNat_or]; exact Nat.or_lt_two_pow hx hy)
  | 4 =>
    exact key _ (by
      rw [show (opRes 4 f x y).1 = x &&& y from rfl, BitVec.toNat_and]; exact Nat.and_lt_two_pow _ hy)
  | 6 => exact key _ (by rw [show (opRes 6 f x y).1 = x ^^^ y from rfl, BitVec.toNat_xor]; exact Nat.xor_lt_two_pow hx hy)
  | 5 => exact sub
  | 7 => exact sub

theorem opOf_cmp (op : Fin 8) : opOf op = .cmp ↔ op = 7 := by
  match op with
  | 0 | 1 | 2 | 3 | 4 | 5 | 6 | 7 => decide

theorem cfOf_carryIn {F : Flags4} {d : St σ} (hF : FlagsOk F d.flags) {op : AluOp} {ci : Bool}
    (h : Cpu.carryIn op (abs d F) = some ci) : op.usesCarry = false ∨ ci = cfOf d.flags := by
  cases hu : op.usesCarry with
  | false => exact Or.inl rfl
  | true =>
    simp only [Cpu.carryIn, hu, if_true] at h
    exact Or.inr (hF.cf ci h).symm

/-- The state after `DoOp` has set the flags. -/
def opState (d : St σ) (op : Fin 8) (l r : W) : St σ :=
  { d with
    flags := opFlags d.dsize (opRes op d.flags (opTrim d.dsize l) (opTrim d.dsize r)).1
      (opRes op d.flags (opTrim d.dsize l) (opTrim d.dsize r)).2 }

theorem wp_DoOp (d : St σ) (op : Fin 8) (l r : W) (Q) : wp (DoOp op l r) d Q ↔
    wp (if op ≠ 7 then WriteRM (opRes op d.flags (opTrim d.dsize l) (opTrim d.dsize r)).1 else pure ())
      (opState d op l r) Q := Iff.rfl

theorem DoOp_wp {d : St σ} {op : Fin 8} {l r : W} {rm : RM} {F : Flags4} (hF : FlagsOk F d.flags)
    (hrm : RMOk d rm ∨ op = 7) {w : Bool} (hw : d.dsize = w) {L R : Word}
    (hl : if w then t16 l = L else t8 l = Cpu.lo L) (hr : if w then t16 r = R else t8 r = Cpu.lo R)
    {c' : Cpu} (hc : Cpu.alu .sim (opOf op) w rm L R (abs d F) = .next c') :
    wp (DoOp op l r) d fun _ s' => Rel s' c' := by
  simp only [Cpu.alu] at hc
  cases hci : Cpu.carryIn (opOf op) (abs d F) with
  | none => rw [hci] at hc; cases hc
  | some ci =>
    rw [hci] at hc
    simp only at hc
    have hcar := cfOf_carryIn hF hci
    -- the result and flags are those for the simulator's carry
    have eR : ∀ {n} (a b : BitVec n), aluRes (opOf op) a b ci = aluRes (opOf op) a b (cfOf d.flags) := by
      intro n a b; rcases hcar with h | h
      · exact aluRes_nocarry _ h _ _ _ _
      · rw [h]
    have eC : ∀ {n} (a b : BitVec n), aluCF (opOf op) a b ci = aluCF (opOf op) a b (cfOf d.flags) := by
      intro n a b; rcases hcar with h | h
      · exact aluCF_nocarry _ h _ _ _ _
      · rw [h]
    have eO : ∀ {n} (a b : BitVec n), aluOF (opOf op) a b ci = aluOF (opOf op) a b (cfOf d.flags) := by
      intro n a b; rcases hcar with h | h
      · exact aluOF_nocarry _ h _ _ _ _
      · rw [h]
    rw [wp_DoOp]
    have hfl : (opState d op l r).flags = opFlags w (opRes op d.flags (opTrim w l) (opTrim w r)).1
      (opRes op d.flags (opTrim w l) (opTrim w r)).2 := by rw [← hw]; rfl
    rw [hw]
    generalize hd' : opState d op l r = d' at *
    have hdz : d'.dsize = w := by rw [← hd']; exact hw
    have habs : ∀ F, abs d' F = abs d F := by intro F; rw [← hd']; rfl
    cases w with
    | true =>
      simp only [if_true] at hl hr hc
      subst hl hr
      simp only [opTrim, if_true] at hfl ⊢
      let F' : Flags4 := ⟨some (aluCF (opOf op) (t16 l) (t16 r) ci), some (aluRes (opOf op) (t16 l) (t16 r) ci == 0),
        some (aluRes (opOf op) (t16 l) (t16 r) ci).msb, some (aluOF (opOf op) (t16 l) (t16 r) ci)⟩
      have hF' : FlagsOk F' d'.flags := by
        rw [hfl, opFlags_16]
        apply flagsOk_mk <;> intro v hv <;> cases hv <;> simp only [eR, eC, eO]
      have hal : Cpu.aluFlags .sim (opOf op) (t16 l) (t16 r) ci (abs d F) = abs d' F' := by
        rw [habs]; rfl
      rw [hal] at hc
      by_cases h7 : op = 7
      · have h7' := (opOf_cmp op).2 h7
        simp only [h7', if_true] at hc
        cases hc
        simp only [h7, ne_eq, not_true, if_false, wp_pure]
        exact ⟨F', rfl, hF'⟩
      · have h7' : opOf op ≠ .cmp := fun h => h7 ((opOf_cmp op).1 h)
        simp only [h7', if_false] at hc
        cases hc
        simp only [h7, ne_eq, not_false_iff, if_true]
        have hrm' : RMOk d' rm := by
          rcases hrm with hrm | hrm
          · rw [← hd']; exact hrm
          · exact absurd hrm h7
        obtain ⟨s', e, hf, h16, _⟩ := WriteRM_eq d' rm (opRes op d.flags l r).1 hrm'
        rw [wp_of_eq e]
        refine ⟨F', ?_, by rw [hf]; exact hF'⟩
        rw [h16 hdz, eR, ← opRes_fst 16 (by omega)]
    | false =>
      simp only [Bool.false_eq_true, if_false] at hl hr hc
      simp only [opTrim, Bool.false_eq_true, if_false] at hfl ⊢
      rw [← hl, ← hr] at hc
      let F' : Flags4 := ⟨some (aluCF (opOf op) (t8 l) (t8 r) ci),
        Flag.of (!(opOf op = .add || opOf op = .adc || opOf op = .sbb)) (aluRes (opOf op) (t8 l) (t8 r) ci == 0),
        some (aluRes (opOf op) (t8 l) (t8 r) ci).msb, some (aluOF (opOf op) (t8 l) (t8 r) ci)⟩
      have hF' : FlagsOk F' d'.flags := by
        rw [hfl, opFlags_8]
        apply flagsOk_mk
        · intro v hv; cases hv; simp only [eC]
        · intro v hv
          simp only [F', Flag.of] at hv
          split at hv
          · rename_i hh
            cases hv
            rw [byte_zf]
            · simp only [eR]
            · simpa [and_assoc] using hh
          · cases hv
        · intro v hv; cases hv; simp only [eR]
        · intro v hv; cases hv; simp only [eO]
      have hal : Cpu.aluFlags .sim (opOf op) (t8 l) (t8 r) ci (abs d F) = abs d' F' := by
        rw [habs]; rfl
      rw [hal] at hc
      by_cases h7 : op = 7
      · have h7' := (opOf_cmp op).2 h7
        simp only [h7', if_true] at hc
        cases hc
        simp only [h7, ne_eq, not_true, if_false, wp_pure]
        exact ⟨F', rfl, hF'⟩
      · have h7' : opOf op ≠ .cmp := fun h => h7 ((opOf_cmp op).1 h)
        simp only [h7', if_false] at hc
        cases hc
        simp only [h7, ne_eq, not_false_iff, if_true]
        have hrm' : RMOk d' rm := by
          rcases hrm with hrm | hrm
          · rw [← hd']; exact hrm
          · exact absurd hrm h7
        obtain ⟨s', e, hf, _, h8⟩ := WriteRM_eq d' rm (opRes op d.flags (l &&& 0xff) (r &&& 0xff)).1 hrm'
        rw [wp_of_eq e]
        refine ⟨F', ?_, by rw [hf]; exact hF'⟩
        have e8 := opRes_fst 8 (by omega) op d.flags (l &&& 0xff) (r &&& 0xff)
        rw [setWidth_and_ff, setWidth_and_ff] at e8
        rw [h8 hdz, eR, ← e8]

/-! ## Stack -/

theorem wp_DoPush {s : St σ} (v : W) (h : -2 ^ 30 ≤ s.sp.toInt ∧ s.sp.toInt < 2 ^ 30) :
    wp (DoPush v) s fun _ s' => s' = { s with sp := s.sp + (-2), mem := s'.mem } ∧
      ∀ F, abs s' F = (abs s F).push (t16 v) := by
  have h2 : (-2 : W).toInt = -2 := rfl
  have h3 := toInt_add_eq (a := s.sp) (b := -2) (by omega) (by omega)
  have hsp : s.reg SP = s.sp := rfl
  simp only [DoPush, wp_bind, wp_getReg, hsp]
  rw [wp_addI s _ (by omega) (by omega), wp_putReg]
  have hw := Write16_wp (s.setReg SP (s.sp + (-2))) .ss (s.sp + (-2)) v (by omega) (by omega)
  have e0 : ∀ x, s.setReg SP x = { s with sp := x } := fun _ => rfl
  rw [e0] at hw ⊢
  refine wp_mono hw ?_
  rintro _ s' ⟨e, ha⟩
  refine ⟨e, fun F => ?_⟩
  rw [ha]
  have : t16 (s.sp + -2) = t16 s.sp - 2 := by
    rw [t16_add, BitVec.sub_eq_add_neg]; rfl
  simp only [Cpu.push, this]
  have e1 : abs ({ s with sp := s.sp + (-2) } : St σ) F = { abs s F with sp := (abs s F).sp - 2 } := by
    simp only [abs, this]
  rw [e1]
  rfl

theorem wp_DoPop {s : St σ} (h : -2 ^ 30 ≤ s.sp.toInt ∧ s.sp.toInt < 2 ^ 30) (Q) :
    wp DoPop s Q ↔ Q (((abs s F0).pop.1).setWidth 32) (s.setReg SP (s.sp + 2)) := by
  have h2 : (2 : W).toInt = 2 := rfl
  have hsp : s.reg SP = s.sp := rfl
  simp only [DoPop, wp_bind, wp_getReg, hsp]
  rw [show SS = srIdx .ss from rfl, wp_Read16 s F0 .ss s.sp _ (by omega) (by omega), hsp, wp_addI s _ (by omega) (by omega), wp_putReg,
    wp_pure]
  rfl

theorem abs_pop (s : St σ) (F) : abs (s.setReg SP (s.sp + 2)) F = (abs s F).pop.2 := by
  rw [abs_setReg, t16_add]; rfl

/-! ## Registers used as pointers -/

theorem wp_bump {s : St σ} (r : Fin 8) (d : W) (Q) (h1 : -2 ^ 31 ≤ (s.reg r).toInt + d.toInt)
    (h2 : (s.reg r).toInt + d.toInt < 2 ^ 31) : wp (bump r d) s Q ↔ Q () (s.setReg r (s.reg r + d)) := by
  simp only [bump, wp_bind, wp_getReg]
  rw [wp_addI s _ h1 h2, wp_putReg]

/-! ## Registers by name -/

theorem reg_AX (s : St σ) : s.reg AX = s.ax := rfl
theorem reg_CX (s : St σ) : s.reg CX = s.cx := rfl
theorem reg_DX (s : St σ) : s.reg DX = s.dx := rfl
theorem reg_BX (s : St σ) : s.reg BX = s.bx := rfl
theorem reg_SP (s : St σ) : s.reg SP = s.sp := rfl
theorem reg_BP (s : St σ) : s.reg BP = s.bp := rfl
theorem reg_SI (s : St σ) : s.reg SI = s.si := rfl
theorem reg_DI (s : St σ) : s.reg DI = s.di := rfl
theorem setReg_AX (s : St σ) (v : W) : s.setReg AX v = { s with ax := v } := rfl
theorem setReg_CX (s : St σ) (v : W) : s.setReg CX v = { s with cx := v } := rfl
theorem setReg_DX (s : St σ) (v : W) : s.setReg DX v = { s with dx := v } := rfl
theorem setReg_BX (s : St σ) (v : W) : s.setReg BX v = { s with bx := v } := rfl
theorem setReg_SP (s : St σ) (v : W) : s.setReg SP v = { s with sp := v } := rfl
theorem setReg_BP (s : St σ) (v : W) : s.setReg BP v = { s with bp := v } := rfl
theorem setReg_SI (s : St σ) (v : W) : s.setReg SI v = { s with si := v } := rfl
theorem setReg_DI (s : St σ) (v : W) : s.setReg DI v = { s with di := v } := rfl

theorem wp_bump_CX (s : St σ) (d : W) (Q) (h1 : -2 ^ 31 ≤ s.cx.toInt + d.toInt)
    (h2 : s.cx.toInt + d.toInt < 2 ^ 31) : wp (bump CX d) s Q ↔ Q () { s with cx := s.cx + d } := by
  rw [wp_bump CX d Q h1 h2]; rfl
theorem wp_bump_SI (s : St σ) (d : W) (Q) (h1 : -2 ^ 31 ≤ s.si.toInt + d.toInt)
    (h2 : s.si.toInt + d.toInt < 2 ^ 31) : wp (bump SI d) s Q ↔ Q () { s with si := s.si + d } := by
  rw [wp_bump SI d Q h1 h2]; rfl
theorem wp_bump_DI (s : St σ) (d : W) (Q) (h1 : -2 ^ 31 ≤ s.di.toInt + d.toInt)
    (h2 : s.di.toInt + d.toInt < 2 ^ 31) : wp (bump DI d) s Q ↔ Q () { s with di := s.di + d } := by
  rw [wp_bump DI d Q h1 h2]; rfl

theorem wp_bump3 (s : St σ) (a b c : W) (k : M σ Unit) (Q) (h1 : -2 ^ 31 ≤ s.cx.toInt + a.toInt)
    (h2 : s.cx.toInt + a.toInt < 2 ^ 31) (h3 : -2 ^ 31 ≤ s.di.toInt + b.toInt)
    (h4 : s.di.toInt + b.toInt < 2 ^ 31) (h5 : -2 ^ 31 ≤ s.si.toInt + c.toInt)
    (h6 : s.si.toInt + c.toInt < 2 ^ 31) :
    wp (do bump CX a; bump DI b; bump SI c; k) s Q ↔
      wp k { s with cx := s.cx + a, di := s.di + b, si := s.si + c } Q := by
  rw [wp_bind, wp_bump_CX s _ _ h1 h2, wp_bind, wp_bump_DI _ _ _ (by exact h3) (by exact h4), wp_bind,
    wp_bump_SI _ _ _ (by exact h5) (by exact h6)]

end Sim86
