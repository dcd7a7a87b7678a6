import Verif.Sim86.Refine
/-!
# The remaining instructions of the simulator model
-/
namespace Sim86
open I86
variable {σ : Type}

/-- Bounds that hold while an instruction of a `Safe` state is executed. -/
structure SafeD (d : St σ) : Prop where
  reg : ∀ r, -2 ^ 28 ≤ (d.reg r).toInt ∧ (d.reg r).toInt < 2 ^ 28
  ip : -2 ^ 29 ≤ d.ip.toInt ∧ d.ip.toInt < 2 ^ 29

theorem reg_dec (s : St σ) (k m a sg dz r) : (dec s k m a sg dz).reg r = s.reg r := by
  match r with
  | 0 | 1 | 2 | 3 | 4 | 5 | 6 | 7 => rfl

theorem Safe.dec {s : St σ} (hs : Safe s) {k} (hk : k ≤ 8) (m a sg dz) : SafeD (Sim86.dec s k m a sg dz) := by
  refine ⟨fun r => ?_, ?_⟩
  · rw [reg_dec]; exact hs.reg r
  · have := hs.ip
    have h2 := dec_ip hs (show k ≤ 65535 by omega)
    simp only [Sim86.dec]
    omega

theorem SafeD.sp {d : St σ} (h : SafeD d) : -2 ^ 30 ≤ d.sp.toInt ∧ d.sp.toInt < 2 ^ 30 := by
  have := h.reg 4
  change -2 ^ 28 ≤ d.sp.toInt ∧ d.sp.toInt < 2 ^ 28 at this
  omega

theorem rm16_ip (c : Cpu) (x : Word) (rm : RM) : ({ c with ip := x } : Cpu).rm16 rm = c.rm16 rm := by
  cases rm with
  | reg r =>
    match r with
    | 0 | 1 | 2 | 3 | 4 | 5 | 6 | 7 => rfl
  | mem sg b d => cases b <;> rcases sg with _ | ⟨_ | _ | _ | _⟩ <;> rfl

theorem hostRM_dec (s : St σ) (k m a sg dz rm) : hostRM (dec s k m a sg dz) rm = hostRM s rm := by
  cases rm with
  | reg r => exact reg_dec ..
  | mem x y z => simp only [hostRM, abs_dec]; rw [rm16_ip]

section
variable {d : St σ} {F : Flags4} {c' : Cpu} {rm : RM}

theorem rel_of (hF : FlagsOk F d.flags) : Rel d (abs d F) := ⟨F, rfl, hF⟩

/-! ### Stack and registers -/

theorem push_rel (hs : SafeD d) (hF : FlagsOk F d.flags) (v : W) :
    wp (DoPush v) d fun _ s' => s' = { d with sp := d.sp + (-2), mem := s'.mem } ∧ FlagsOk F s'.flags ∧
      abs s' F = (abs d F).push (t16 v) := by
  refine wp_mono (wp_DoPush v hs.sp) ?_
  rintro _ s' ⟨e, h⟩
  exact ⟨e, by rw [e]; exact hF, h F⟩

theorem setSreg_flags (s : St σ) (r : Fin 4) (v : W) : (s.setSreg r v).flags = s.flags := by
  match r with
  | 0 | 1 | 2 | 3 => rfl

theorem pushSeg_wp (hs : SafeD d) (hF : FlagsOk F d.flags) (sr : SReg)
    (hx : Cpu.exec .sim (.pushSeg sr) (abs d F) = .next c') :
    wp (do DoPush (← getSreg (srIdx sr))) d fun _ s' => Rel s' c' := by
  simp only [Cpu.exec, Out.next.injEq] at hx
  subst hx
  rw [wp_bind, wp_getSreg]
  refine wp_mono (push_rel hs hF _) ?_
  rintro _ s' ⟨_, hf, e⟩
  rw [abs_sreg, ← e]
  exact rel_of hf

theorem pop_eq (d : St σ) (F) : (abs d F0).pop.1 = (abs d F).pop.1 := rfl

theorem popSeg_wp (hs : SafeD d) (hF : FlagsOk F d.flags) (sr : SReg)
    (hx : Cpu.exec .sim (.popSeg sr) (abs d F) = .next c') :
    wp (do putSreg (srIdx sr) (← DoPop)) d fun _ s' => Rel s' c' := by
  simp only [Cpu.exec, Out.next.injEq] at hx
  subst hx
  rw [wp_bind, wp_DoPop hs.sp, wp_putSreg]
  refine ⟨F, ?_, ?_⟩
  · rw [abs_setSreg, abs_pop, t16_zext, pop_eq d F]
  · rw [setSreg_flags, setReg_flags]; exact hF

theorem push_wp (hs : SafeD d) (hF : FlagsOk F d.flags) (r : Fin 8)
    (hx : Cpu.exec .sim (.push r) (abs d F) = .next c') :
    wp (do DoPush (← getReg r)) d fun _ s' => Rel s' c' := by
  simp only [Cpu.exec] at hx
  split at hx
  · cases hx
  · simp only [Out.next.injEq] at hx
    subst hx
    rw [wp_bind, wp_getReg]
    refine wp_mono (push_rel hs hF _) ?_
    rintro _ s' ⟨_, hf, e⟩
    rw [abs_reg, ← e]
    exact rel_of hf

theorem pop_wp (hs : SafeD d) (hF : FlagsOk F d.flags) (r : Fin 8)
    (hx : Cpu.exec .sim (.pop r) (abs d F) = .next c') :
    wp (do putReg r (← DoPop)) d fun _ s' => Rel s' c' := by
  simp only [Cpu.exec, Out.next.injEq] at hx
  subst hx
  rw [wp_bind, wp_DoPop hs.sp, wp_putReg]
  refine ⟨F, ?_, ?_⟩
  · rw [abs_setReg, abs_pop, t16_zext, pop_eq d F]
  · rw [setReg_flags, setReg_flags]; exact hF

theorem xchg_wp (hF : FlagsOk F d.flags) (r : Fin 8)
    (hx : Cpu.exec .sim (.xchgAx r) (abs d F) = .next c') :
    wp (do
      let rv ← getReg r
      putReg r (← getReg AX)
      putReg AX rv) d fun _ s' => Rel s' c' := by
  simp only [Cpu.exec, Out.next.injEq] at hx
  subst hx
  simp only [wp_bind, wp_getReg, wp_putReg]
  refine ⟨F, ?_, by rw [setReg_flags, setReg_flags]; exact hF⟩
  rw [abs_setReg, abs_setReg, abs_reg]
  match r with
  | 0 | 1 | 2 | 3 | 4 | 5 | 6 | 7 => rfl

theorem putReg_rel (hF : FlagsOk F d.flags) (r : Fin 8) (v : W) : wp (putReg r v) d fun _ s' =>
    Rel s' ((abs d F).setReg16 r (t16 v)) := by
  rw [wp_putReg]
  exact ⟨F, (abs_setReg d F r v).symm, by rw [setReg_flags]; exact hF⟩

/-! ### INC and DEC -/

theorem sshiftRight_bound (x : W) (h : -2 ^ 28 ≤ x.toInt ∧ x.toInt < 2 ^ 28) :
    -2 ^ 28 ≤ (x.sshiftRight 8).toInt ∧ (x.sshiftRight 8).toInt < 2 ^ 28 := by
  rw [BitVec.toInt_sshiftRight, Int.shiftRight_eq_div_pow]
  omega

theorem ReadRM_bound (hs : SafeD d) (hok : RMOk d rm) : ∃ v, ReadRM d = .ok v d ∧
    (d.dsize = true → t16 v = (abs d F).rm16 rm) ∧ (d.dsize = false → t8 v = (abs d F).rm8 rm) ∧
    -2 ^ 28 ≤ v.toInt ∧ v.toInt < 2 ^ 28 := by
  obtain ⟨v, e, h16, h8, h, _⟩ := ReadRM_eq d rm hok
  refine ⟨v, e, fun hz => h16 hz F, fun hz => h8 hz F, ?_⟩
  rcases h with ⟨r, rfl | rfl⟩ | h
  · exact hs.reg r
  · exact sshiftRight_bound _ (hs.reg r)
  · rw [BitVec.toInt_eq_toNat_of_lt (by omega)]
    omega

theorem incRes {n} (v : BitVec n) : aluRes .add v 1 false = v + 1 := rfl
theorem decRes {n} (v : BitVec n) : aluRes .sub v 1 false = v - 1 := rfl

theorem incDec_wp (hs : SafeD d) (hF : FlagsOk F d.flags) (hok : RMOk d rm) (neg w : Bool) (hz : d.dsize = w)
    (hx : Cpu.exec .sim (.incDec neg w rm) (abs d F) = .next c') :
    wp (DoIncDec (if neg then -1 else 1)) d fun _ s' => Rel s' c' := by
  obtain ⟨v, e, h16, h8, h1, h2⟩ := ReadRM_bound (F := F) hs hok
  have hn1 : (-1 : W).toInt = -1 := rfl
  have hp1 : (1 : W).toInt = 1 := rfl
  have ha : wp (addI v (if neg then -1 else 1)) d fun x s' => x = v + (if neg then -1 else 1) ∧ s' = d := by
    rw [wp_addI]
    · exact ⟨rfl, rfl⟩
    · cases neg <;> simp only [if_true, Bool.false_eq_true, if_false] <;> omega
    · cases neg <;> simp only [if_true, Bool.false_eq_true, if_false] <;> omega
  simp only [DoIncDec, wp_bind]
  rw [wp_of_eq e]
  refine wp_mono ha ?_
  rintro _ _ ⟨rfl, h0⟩
  rw [h0]
  obtain ⟨s', e', hf, g16, g8⟩ := WriteRM_eq d rm (v + (if neg then -1 else 1)) hok
  rw [wp_of_eq e']
  refine ⟨⟨F.cf, none, none, none⟩, ?_, ?_⟩
  · cases w with
    | true =>
      simp only [Cpu.exec, if_true, Out.next.injEq] at hx
      subst hx
      have hv : t16 (v + (if neg then -1 else 1)) =
          aluRes (if neg then AluOp.sub else .add) ((abs d F).rm16 rm) 1 false := by
        rw [← h16 hz]
        cases neg with
        | true => exact t16_neg1 v
        | false => exact t16_add v 1
      have := g16 hz ⟨F.cf, none, none, none⟩
      rw [this, ← abs_setF d F, setRm16_setF, hv]
      cases rm with
      | reg r =>
        match r with
        | 0 | 1 | 2 | 3 | 4 | 5 | 6 | 7 => rfl
      | mem sg b d => rfl
    | false =>
      simp only [Cpu.exec, Bool.false_eq_true, if_false, Out.next.injEq] at hx
      subst hx
      have hv : t8 (v + (if neg then -1 else 1)) =
          aluRes (if neg then AluOp.sub else .add) ((abs d F).rm8 rm) 1 false := by
        rw [← h8 hz]
        cases neg with
        | true =>
          show t8 (v + -1) = t8 v - 1
          rw [BitVec.sub_eq_add_neg]
          exact BitVec.setWidth_add _ _ (by omega)
        | false => exact BitVec.setWidth_add _ _ (by omega)
      have := g8 hz ⟨F.cf, none, none, none⟩
      rw [this, ← abs_setF d F, setRm8_setF, hv]
      cases rm with
      | reg r =>
        match r with
        | 0 | 1 | 2 | 3 | 4 | 5 | 6 | 7 => rfl
      | mem sg b d => rfl
  · rw [hf]
    refine ⟨fun v hv => hF.cf v hv, ?_, ?_, ?_⟩ <;> intro v hv <;> cases hv

/-! ### Jumps -/

theorem wp_addIp (rel : W) (Q) (h1 : -2 ^ 31 ≤ d.ip.toInt + rel.toInt) (h2 : d.ip.toInt + rel.toInt < 2 ^ 31) :
    wp (addIp rel) d Q ↔ Q () { d with ip := d.ip + rel } := by
  simp only [addIp, wp_bind, wp_getS]
  rw [wp_addI d _ h1 h2, wp_modS]

theorem addIp_rel (hs : SafeD d) (hF : FlagsOk F d.flags) (rel : W) (hr : -2 ^ 16 ≤ rel.toInt ∧ rel.toInt < 2 ^ 16) :
    wp (addIp rel) d fun _ s' => Rel s' { abs d F with ip := (abs d F).ip + t16 rel } := by
  have := hs.ip
  rw [wp_addIp _ _ (by omega) (by omega)]
  refine ⟨F, ?_, hF⟩
  simp only [abs, t16_add]

theorem jcc_wp (hs : SafeD d) (hF : FlagsOk F d.flags) (cc : Fin 16) (rel : W)
    (hr : -2 ^ 16 ≤ rel.toInt ∧ rel.toInt < 2 ^ 16)
    (hx : Cpu.exec .sim (.jcc cc (t16 rel)) (abs d F) = .next c') :
    ∃ j, jccCond cc d.flags = some j ∧
      wp (if j = (cc.val % 2 == 0) then addIp rel else pure ()) d fun _ s' => Rel s' c' := by
  have key : ∀ b, (abs d F).cond cc = some b → ∃ j, jccCond cc d.flags = some j ∧ (decide (j = (cc.val % 2 == 0)) = b) := by
    intro b hb
    have hcf : ∀ v, F.cf = some v → (decide (d.flags &&& FC ≠ 0)) = v := hF.cf
    have hzf : ∀ v, F.zf = some v → (decide (d.flags &&& FZ ≠ 0)) = v := hF.zf
    have hsf : ∀ v, F.sf = some v → (decide (d.flags &&& FS ≠ 0)) = v := hF.sf
    have hof : ∀ v, F.of = some v → (decide (d.flags &&& FO ≠ 0)) = v := hF.of
    have h8 : cc.val / 2 = 0 ∨ cc.val / 2 = 1 ∨ cc.val / 2 = 2 ∨ cc.val / 2 = 3 ∨ cc.val / 2 = 4 ∨ cc.val / 2 = 5 ∨
        cc.val / 2 = 6 ∨ cc.val / 2 = 7 := by omega
    rcases F with ⟨cf, zf, sf, of⟩
    have h2 : cc.val % 2 = 0 ∨ cc.val % 2 = 1 := by omega
    rcases h8 with h | h | h | h | h | h | h | h <;>
      simp only [Cpu.cond, h, abs] at hb <;> simp only [jccCond, h]
    · cases of with
      | none => cases hb
      | some o => rw [hof o rfl]; rcases h2 with h2 | h2 <;> cases o <;> simp [h2] at hb ⊢ <;> exact hb
    · cases cf with
      | none => cases hb
      | some o => rw [hcf o rfl]; rcases h2 with h2 | h2 <;> cases o <;> simp [h2] at hb ⊢ <;> exact hb
    · cases zf with
      | none => cases hb
      | some o => rw [hzf o rfl]; rcases h2 with h2 | h2 <;> cases o <;> simp [h2] at hb ⊢ <;> exact hb
    · cases cf with
      | none => cases hb
      | some o =>
        cases zf with
        | none => cases hb
        | some z =>
          rw [hzf z rfl, hcf o rfl]
          rcases h2 with h2 | h2 <;> cases o <;> cases z <;> simp [h2] at hb ⊢ <;> exact hb
    · cases sf with
      | none => cases hb
      | some o => rw [hsf o rfl]; rcases h2 with h2 | h2 <;> cases o <;> simp [h2] at hb ⊢ <;> exact hb
    · cases hb
    · cases sf with
      | none => cases hb
      | some o =>
        cases of with
        | none => cases hb
        | some z =>
          rw [hof z rfl, hsf o rfl]
          rcases h2 with h2 | h2 <;> cases o <;> cases z <;> simp [h2] at hb ⊢ <;> exact hb
    · cases sf with
      | none => cases zf <;> cases hb
      | some o =>
        cases of with
        | none => cases zf <;> cases hb
        | some z =>
          cases zf with
          | none => cases hb
          | some y =>
            rw [hof z rfl, hsf o rfl, hzf y rfl]
            rcases h2 with h2 | h2 <;> cases o <;> cases z <;> cases y <;> simp [h2] at hb ⊢ <;> exact hb
  simp only [Cpu.exec] at hx
  split at hx
  · cases hx
  · rename_i hb
    obtain ⟨j, hj, e⟩ := key _ hb
    refine ⟨j, hj, ?_⟩
    rw [if_pos (of_decide_eq_true e)]
    simp only [Out.next.injEq] at hx
    subst hx
    exact addIp_rel hs hF rel hr
  · rename_i hb
    obtain ⟨j, hj, e⟩ := key _ hb
    refine ⟨j, hj, ?_⟩
    rw [if_neg (of_decide_eq_false e), wp_pure]
    simp only [Out.next.injEq] at hx
    subst hx
    exact rel_of hF

theorem ret_wp (hs : SafeD d) (hF : FlagsOk F d.flags)
    (hx : Cpu.exec .sim .ret (abs d F) = .next c') :
    wp (do
      let v ← DoPop
      modS fun s => { s with ip := v }) d fun _ s' => Rel s' c' := by
  simp only [Cpu.exec, Out.next.injEq] at hx
  subst hx
  rw [wp_bind, wp_DoPop hs.sp, wp_modS]
  refine ⟨F, ?_, ?_⟩
  · rw [← abs_pop, ← pop_eq]
    simp only [abs, t16_zext]
  · simp only [setReg_flags]; exact hF

theorem call_wp (hs : SafeD d) (hF : FlagsOk F d.flags) (rel : W) (hr : -2 ^ 16 ≤ rel.toInt ∧ rel.toInt < 2 ^ 16)
    (hx : Cpu.exec .sim (.call (t16 rel)) (abs d F) = .next c') :
    wp (do
      DoPush (← getS).ip
      addIp rel) d fun _ s' => Rel s' c' := by
  simp only [Cpu.exec, Out.next.injEq] at hx
  subst hx
  simp only [wp_bind, wp_getS]
  refine wp_mono (push_rel hs hF _) ?_
  rintro _ s' ⟨e1, hf, e⟩
  have h := hs.ip
  have hip : s'.ip = d.ip := by rw [e1]
  rw [wp_addIp _ _ (by rw [hip]; omega) (by rw [hip]; omega)]
  refine ⟨F, ?_, hf⟩
  have : (abs d F).ip = t16 d.ip := rfl
  rw [this, ← e]
  simp only [abs, t16_add, hip]

/-! ### Small moves -/

theorem cbw_wp (hF : FlagsOk F d.flags) (hx : Cpu.exec .sim .cbw (abs d F) = .next c') :
    wp (do putReg AX (schar (← getReg AX))) d fun _ s' => Rel s' c' := by
  simp only [Cpu.exec, Out.next.injEq] at hx
  subst hx
  rw [wp_bind, wp_getReg]
  have := putReg_rel hF AX (schar (d.reg AX))
  have e : t16 (schar (d.reg AX)) = (Cpu.lo (abs d F).ax).signExtend 16 := by
    have h1 := t16_schar (t8 d.ax)
    have h2 : (abs d F).ax = t16 d.ax := rfl
    rw [h2, ← t8_eq_lo, ← h1, reg_AX, schar, schar, setWidth8_32]
  rw [e] at this
  exact this

theorem cwd_wp (hF : FlagsOk F d.flags) (hx : Cpu.exec .sim .cwd (abs d F) = .next c') :
    wp (do putReg DX (if (← getReg AX) &&& 0x8000 ≠ 0 then -1 else 0)) d fun _ s' => Rel s' c' := by
  simp only [Cpu.exec, Out.next.injEq] at hx
  subst hx
  simp only [wp_bind, wp_getReg]
  have e := and_8000_ne (d.reg AX)
  have h2 : (abs d F).ax = t16 (d.reg AX) := rfl
  rw [h2, ← e]
  by_cases h : d.reg AX &&& 0x8000 ≠ 0
  · rw [if_pos h]
    have := putReg_rel hF DX (-1)
    rw [decide_eq_true h]
    exact this
  · rw [if_neg h]
    have := putReg_rel hF DX 0
    rw [decide_eq_false h]
    exact this

theorem movSegRm_wp (hF : FlagsOk F d.flags) (hok : RMOk d rm) (hz : d.dsize = true) (sr : SReg)
    (hx : Cpu.exec .sim (.movSegRm sr rm) (abs d F) = .next c') :
    wp (do putSreg (srIdx sr) (← ReadRM)) d fun _ s' => Rel s' c' := by
  simp only [Cpu.exec, Out.next.injEq] at hx
  subst hx
  obtain ⟨v, e, h16, _⟩ := ReadRM_eq d rm hok
  rw [wp_bind, wp_of_eq e, wp_putSreg]
  exact ⟨F, by rw [abs_setSreg, h16 hz F], by rw [setSreg_flags]; exact hF⟩

theorem movRmSeg_wp (hF : FlagsOk F d.flags) (hok : RMOk d rm) (hz : d.dsize = true) (sr : SReg)
    (hx : Cpu.exec .sim (.movRmSeg rm sr) (abs d F) = .next c') :
    wp (do WriteRM (← getSreg (srIdx sr))) d fun _ s' => Rel s' c' := by
  simp only [Cpu.exec, Out.next.injEq] at hx
  subst hx
  rw [wp_bind, wp_getSreg]
  exact WriteRM_rel hF hok hz (abs_sreg d F sr).symm

theorem movImm_wp (hF : FlagsOk F d.flags) (hok : RMOk d rm) (w : Bool) (hz : d.dsize = w) {v : W} {imm : Word}
    (hv : if w then t16 v = imm else t8 v = Cpu.lo imm)
    (hx : Cpu.exec .sim (.movImm w rm imm) (abs d F) = .next c') :
    wp (WriteRM v) d fun _ s' => Rel s' c' := by
  simp only [Cpu.exec, Out.next.injEq] at hx
  subst hx
  obtain ⟨s', e', hf, g16, g8⟩ := WriteRM_eq d rm v hok
  rw [wp_of_eq e']
  refine ⟨F, ?_, by rw [hf]; exact hF⟩
  cases w with
  | true => simp only [if_true] at hv ⊢; rw [g16 hz, hv]
  | false => simp only [Bool.false_eq_true, if_false] at hv ⊢; rw [g8 hz, hv]

theorem movAcc_wp (hF : FlagsOk F d.flags) (store w : Bool) {off : W} {o : Word} (ho : t16 off = o)
    (hb : 0 ≤ off.toInt ∧ off.toInt < 2 ^ 16)
    (hx : Cpu.exec .sim (if store then .movMemAcc w none o else .movAccMem w none o) (abs d F) = .next c') :
    wp (match store, w with
      | true, true => Write16 DS off d.ax
      | true, false => Write8 DS off (d.ax &&& 0xff)
      | false, true => do putReg AX (← Read16 DS off)
      | false, false => do putReg AX ((d.ax &&& 0xff00) ||| (← Read8 DS off))) d fun _ s' => Rel s' c' := by
  subst ho
  rw [show DS = srIdx .ds from rfl]
  cases store with
  | true =>
    cases w with
    | true =>
      simp only [if_true, Cpu.exec, Out.next.injEq] at hx ⊢
      subst hx
      refine wp_mono (Write16_wp d .ds off d.ax (by omega) (by omega)) ?_
      rintro _ s' ⟨e, ha⟩
      exact ⟨F, (ha F).symm, by rw [e]; exact hF⟩
    | false =>
      simp only [if_true, Cpu.exec, Out.next.injEq, Bool.false_eq_true, if_false] at hx ⊢
      subst hx
      obtain ⟨s', e, hs', ha⟩ := Write8_eq d .ds off (d.ax &&& 0xff)
      rw [wp_of_eq e]
      refine ⟨F, ?_, by rw [hs']; exact hF⟩
      rw [ha F, show t8 (d.ax &&& 0xff) = t8 d.ax from setWidth_and_ff _, t8_eq_lo]; rfl
  | false =>
    cases w with
    | true =>
      simp only [if_true, Cpu.exec, Out.next.injEq, Bool.false_eq_true, if_false] at hx ⊢
      subst hx
      rw [wp_bind, wp_Read16 d F .ds off _ (by omega) (by omega)]
      have := putReg_rel hF AX (((abs d F).rd16 ((abs d F).sreg .ds) (t16 off)).setWidth 32)
      rw [t16_zext] at this
      exact this
    | false =>
      simp only [Cpu.exec, Out.next.injEq, Bool.false_eq_true, if_false] at hx ⊢
      subst hx
      rw [wp_bind, wp_Read8 d F .ds off]
      generalize hb : (abs d F).rd8 ((abs d F).sreg .ds) (t16 off) = b
      have h2 : (b.setWidth 32 : W) = b.setWidth 32 &&& 0xff := by
        apply BitVec.eq_of_toNat_eq
        rw [toNat_and_ff, BitVec.toNat_setWidth]
        have := b.isLt
        omega
      have := putReg_rel hF AX ((d.ax &&& 0xff00) ||| b.setWidth 32)
      rw [h2, t16_lo_write, t8, setWidth8_32] at this
      rw [h2]
      refine wp_mono this ?_
      intro _ s' h
      simp only [Option.getD_none, hb]
      exact h

/-! ### LEA -/

theorem lea_wp (hF : FlagsOk F d.flags) {base disp} {sg : Option SReg} (hok : RMOk d (.mem sg base disp)) (r : Fin 8)
    (hx : Cpu.exec .sim (.lea r base disp) (abs d F) = .next c') :
    wp (putReg r d.addr) d fun _ s' => Rel s' c' := by
  obtain ⟨b, hm, h3, hsg, hadr, h1, h2⟩ := hok
  simp only [Cpu.exec, Out.next.injEq] at hx
  subst hx
  have := putReg_rel hF r d.addr
  rw [hadr, ← eff_eq d F] at this
  exact this

/-! ### String instructions -/

theorem SafeD.near_si (hs : SafeD d) {n : Int} (h0 : 0 ≤ n) (hn : n ≤ 2 ^ 17) : Near d.si n := by
  have := hs.reg 6
  change -2 ^ 28 ≤ d.si.toInt ∧ d.si.toInt < 2 ^ 28 at this
  constructor <;> omega

theorem SafeD.near_di (hs : SafeD d) {n : Int} (h0 : 0 ≤ n) (hn : n ≤ 2 ^ 17) : Near d.di n := by
  have := hs.reg 7
  change -2 ^ 28 ≤ d.di.toInt ∧ d.di.toInt < 2 ^ 28 at this
  constructor <;> omega

theorem zext_toNat {v : W} (h : ZExt v) : (t16 v).toNat = v.toNat := by
  have : v.toNat < 2 ^ 16 := h
  rw [BitVec.toNat_setWidth]; omega

theorem repMovs_rel (hs : SafeD d) (hF : FlagsOk F d.flags) (w : Bool) (hc : ZExt d.cx)
    (hx : Cpu.exec .sim (.repMovs w) (abs d F) = .next c') :
    wp (repMovs w loopFuel) d fun _ s' => Rel s' c' := by
  have hc' : d.cx.toNat < 2 ^ 16 := hc
  simp only [Cpu.exec, Out.next.injEq] at hx
  subst hx
  refine wp_mono (repMovs_wp w d.cx.toNat loopFuel d rfl hc' (by rw [loopFuel]; omega) (hs.near_si (by omega) (by omega))
    (hs.near_di (by omega) (by omega))) ?_
  rintro _ s' ⟨h1, h2⟩
  refine ⟨F, ?_, by rw [h1]; exact hF⟩
  rw [h2, ← zext_toNat hc]; rfl

theorem stos_rel (hs : SafeD d) (hF : FlagsOk F d.flags) (w : Bool) (rep : Byte) (hc : rep = 0xf3 → ZExt d.cx)
    (hx : Cpu.exec .sim (if rep = 0xf3 then .repStos w else .stos w) (abs d F) = .next c') :
    wp (STOS w rep) d fun _ s' => Rel s' c' := by
  have := hs.near_di (n := 0) (by omega) (by omega)
  have hdi := hs.reg 7
  change -2 ^ 28 ≤ d.di.toInt ∧ d.di.toInt < 2 ^ 28 at hdi
  refine wp_mono (STOS_wp w d rep hc (by omega)) ?_
  rintro _ s' ⟨h1, h2⟩
  refine ⟨F, ?_, by rw [h1]; exact hF⟩
  rw [h2]
  split at hx <;> simp only [Cpu.exec, Out.next.injEq] at hx <;> subst hx
  · rename_i h; rw [if_pos h]; rfl
  · rename_i h; rw [if_neg h]

theorem cmpsN_setF (n : Nat) (c : Cpu) (F : Flags4) : Cpu.cmpsN .sim (n + 1) (setF c F) = Cpu.cmpsN .sim (n + 1) c := rfl
theorem scasN_setF (n : Nat) (c : Cpu) (F : Flags4) : Cpu.scasN .sim (n + 1) (setF c F) = Cpu.scasN .sim (n + 1) c := rfl

theorem repCmps_rel (hs : SafeD d) (hz : d.dsize = true) (hc : ZExt d.cx)
    (hx : Cpu.exec .sim .repeCmpsb (abs d F) = .next c') :
    wp (do modS fun s => { s with flags := FZ }; repCmps loopFuel) d fun _ s' => Rel s' c' := by
  have hc' : d.cx.toNat < 2 ^ 16 := hc
  rw [wp_bind, wp_modS]
  have hd : SafeD { d with flags := FZ } := ⟨fun r => by
    match r with
    | 0 => exact hs.reg 0
    | 1 => exact hs.reg 1
    | 2 => exact hs.reg 2
    | 3 => exact hs.reg 3
    | 4 => exact hs.reg 4
    | 5 => exact hs.reg 5
    | 6 => exact hs.reg 6
    | 7 => exact hs.reg 7, hs.ip⟩
  have := repCmps_wp d.cx.toNat loopFuel { d with flags := FZ } F0 rfl hc' (by rw [loopFuel]; omega) hz
    (show zfOf FZ = true by decide)
    (flagsOk_F0 _) (hd.near_si (by omega) (by omega)) (hd.near_di (by omega) (by omega))
  refine wp_mono this ?_
  intro _ s' h
  simp only [Cpu.exec] at hx
  have hcx : (abs d F).cx = t16 d.cx := rfl
  split at hx
  · rename_i h0
    simp only [Out.next.injEq] at hx
    subst hx
    have : d.cx.toNat = 0 := by rw [← zext_toNat hc, ← hcx, h0]; rfl
    rw [this] at h
    exact h
  · rename_i h0
    simp only [Out.next.injEq] at hx
    subst hx
    have hne : d.cx.toNat ≠ 0 := by
      intro e; apply h0; rw [hcx]; apply BitVec.eq_of_toNat_eq; rw [zext_toNat hc, e]; rfl
    obtain ⟨n, hn⟩ : ∃ n, d.cx.toNat = n + 1 := ⟨d.cx.toNat - 1, by omega⟩
    rw [hcx, zext_toNat hc, hn]
    rw [hn] at h
    exact h

theorem repScas_rel (hs : SafeD d) (hz : d.dsize = true) (hc : ZExt d.cx)
    (hx : Cpu.exec .sim .repneScasb (abs d F) = .next c') :
    wp (do modS fun s => { s with flags := 0 }; repScas loopFuel) d fun _ s' => Rel s' c' := by
  have hc' : d.cx.toNat < 2 ^ 16 := hc
  rw [wp_bind, wp_modS]
  have hd : Near ({ d with flags := 0 } : St σ).di d.cx.toNat := hs.near_di (by omega) (by omega)
  have := repScas_wp d.cx.toNat loopFuel { d with flags := 0 } F0 rfl hc' (by rw [loopFuel]; omega) hz
    (show zfOf 0 = false by decide)
    (flagsOk_F0 _) hd
  refine wp_mono this ?_
  intro _ s' h
  simp only [Cpu.exec] at hx
  have hcx : (abs d F).cx = t16 d.cx := rfl
  split at hx
  · rename_i h0
    simp only [Out.next.injEq] at hx
    subst hx
    have : d.cx.toNat = 0 := by rw [← zext_toNat hc, ← hcx, h0]; rfl
    rw [this] at h
    exact h
  · rename_i h0
    simp only [Out.next.injEq] at hx
    subst hx
    have hne : d.cx.toNat ≠ 0 := by
      intro e; apply h0; rw [hcx]; apply BitVec.eq_of_toNat_eq; rw [zext_toNat hc, e]; rfl
    obtain ⟨n, hn⟩ : ∃ n, d.cx.toNat = n + 1 := ⟨d.cx.toNat - 1, by omega⟩
    rw [hcx, zext_toNat hc, hn]
    rw [hn] at h
    exact h

theorem lodsb_wp (hs : SafeD d) (hF : FlagsOk F d.flags) (hz : d.dsize = false)
    (hx : Cpu.exec .sim (.lods false) (abs d F) = .next c') :
    wp (do
      WriteReg AX (← Read8 DS (← getReg SI))
      bump SI 1) d fun _ s' => Rel s' c' := by
  have hsi := hs.reg 6
  change -2 ^ 28 ≤ d.si.toInt ∧ d.si.toInt < 2 ^ 28 at hsi
  simp only [Cpu.exec, Out.next.injEq, Bool.false_eq_true, if_false] at hx
  subst hx
  simp only [wp_bind, wp_getReg]
  rw [show DS = srIdx .ds from rfl, wp_Read8 d F .ds]
  obtain ⟨s', e, _⟩ := WriteReg_eq d AX (((abs d F).rd8 ((abs d F).sreg .ds) (t16 (d.reg SI))).setWidth 32)
  have e2 : s' = { d with ax := s'.ax } := by
    simp only [WriteReg, hz] at e
    cases e
    rfl
  obtain ⟨s'', e', hf, _, g8⟩ := WriteReg_eq d AX (((abs d F).rd8 ((abs d F).sreg .ds) (t16 (d.reg SI))).setWidth 32)
  rw [e] at e'
  cases e'
  rw [wp_of_eq e]
  have h1 : (1 : W).toInt = 1 := rfl
  have hsi' : s'.si = d.si := by rw [e2]
  rw [wp_bump_SI _ _ _ (by rw [hsi']; omega) (by rw [hsi']; omega)]
  refine ⟨F, ?_, by rw [show ({ s' with si := s'.si + 1 } : St σ).flags = s'.flags from rfl, hf]; exact hF⟩
  have g := g8 hz F
  rw [t8, setWidth8_32] at g
  have : abs ({ s' with si := s'.si + 1 } : St σ) F = { abs s' F with si := (abs s' F).si + 1 } := by
    simp only [abs, t16_add]; rfl
  rw [this, g]
  have h3 : ((abs d F).setReg8 0 ((abs d F).rd8 (abs d F).ds (abs d F).si)).si = (abs d F).si := rfl
  rfl

theorem lodsw_wp (hs : SafeD d) (hF : FlagsOk F d.flags) (hz : d.dsize = true)
    (hx : Cpu.exec .sim (.lods true) (abs d F) = .next c') :
    wp (do
      WriteReg AX (← Read16 DS (← getReg SI))
      bump SI 2) d fun _ s' => Rel s' c' := by
  have hsi := hs.reg 6
  change -2 ^ 28 ≤ d.si.toInt ∧ d.si.toInt < 2 ^ 28 at hsi
  simp only [Cpu.exec, Out.next.injEq, if_true] at hx
  subst hx
  simp only [wp_bind, wp_getReg]
  rw [show DS = srIdx .ds from rfl, reg_SI, wp_Read16 d F .ds _ _ (by omega) (by omega)]
  generalize hv : (((abs d F).rd16 ((abs d F).sreg .ds) (t16 d.si)).setWidth 32 : W) = v
  have e : WriteReg AX v d = .ok () { d with ax := v } := by
    rw [← setReg_AX]
    simp only [WriteReg, hz, if_true]
  rw [wp_of_eq e]
  have h1 : (2 : W).toInt = 2 := rfl
  rw [wp_bump_SI _ _ _ (by simp only; omega) (by simp only; omega)]
  refine ⟨F, ?_, hF⟩
  simp only [abs, t16_add, ← hv, t16_zext]
  rfl

/-! ### Shifts, opcodes D1 and D3 -/

theorem wr8_self (c : Cpu) (a b : Word) : c.wr8 a b (c.rd8 a b) = c := by
  rw [Cpu.wr8, Cpu.rd8, Mem.set_get_self _ (lin_lt a b)]

theorem lo_append (h l : Byte) : Cpu.lo (h ++ l) = l := by
  apply BitVec.eq_of_getLsbD_eq
  intro i hi
  rw [Cpu.lo, BitVec.getLsbD_setWidth, BitVec.getLsbD_append]
  simp [hi]
theorem hi_append (h l : Byte) : Cpu.hi (h ++ l) = h := by
  rw [Cpu.hi]; exact BitVec.extractLsb'_append_eq_left

theorem setRm16_self (c : Cpu) (rm : RM) : c.setRm16 rm (c.rm16 rm) = c := by
  cases rm with
  | reg r =>
    match r with
    | 0 | 1 | 2 | 3 | 4 | 5 | 6 | 7 => rfl
  | mem sg b disp =>
    simp only [Cpu.setRm16, Cpu.rm16, Cpu.wr16, Cpu.rd16, lo_append, hi_append]
    rw [wr8_self, wr8_self]

theorem shift_zero_rel (hok : RMOk d rm) (hz : d.dsize = true) (v : W) (hv : t16 v = (abs d F).rm16 rm) (f : W) :
    wp (do WriteRM v; modS fun s => { s with flags := f }) d fun _ s' => Rel s' (abs d F).noFlags := by
  obtain ⟨s', e', hf, g16, _⟩ := WriteRM_eq d rm v hok
  rw [wp_bind, wp_of_eq e', wp_modS]
  refine ⟨F0, ?_, flagsOk_F0 _⟩
  have := g16 hz F0
  rw [hv, show (abs d F).rm16 rm = (abs d F0).rm16 rm by
    cases rm with
    | reg r => rw [Cpu.rm16, Cpu.rm16, abs_reg, abs_reg]
    | mem => rfl, setRm16_self] at this
  rw [show abs ({ s' with flags := f } : St σ) F0 = abs s' F0 from rfl, this]
  rfl

/-! ### Group 3 -/

theorem t16_not (v : W) : t16 (~~~v) = ~~~(t16 v) := by
  apply BitVec.eq_of_getLsbD_eq
  intro i hi
  have : i < 32 := by omega
  simp [hi, this]

theorem t16_mul (a b : W) : t16 (a * b) = t16 a * t16 b := BitVec.setWidth_mul _ _ (by omega)

theorem t16_neg (a : W) : t16 (-a) = -(t16 a) := by
  have h := t16_add a (-a)
  rw [BitVec.add_right_neg] at h
  have h0 : t16 0#32 = 0 := rfl
  rw [h0] at h
  have : -(t16 a) = -(t16 a) + (t16 a + t16 (-a)) := by rw [← h]; simp
  rw [this, ← BitVec.add_assoc, BitVec.add_left_neg]; simp

theorem t16_ofInt (v : W) : t16 v = BitVec.ofInt 16 v.toInt := by
  apply BitVec.eq_of_toInt_eq
  rw [BitVec.toInt_setWidth, BitVec.toInt_ofInt, BitVec.toInt_eq_toNat_bmod, Int.bmod_bmod_of_dvd (by decide)]

theorem noFlags_setRm16 (d : St σ) (F) (rm : RM) (v : Word) :
    ((abs d F).setRm16 rm v).noFlags = (abs d F0).setRm16 rm v := by
  rw [← abs_setF d F F0, setRm16_setF]; rfl

theorem not_wp (hF : FlagsOk F d.flags) (hok : RMOk d rm) (hz : d.dsize = true)
    (hx : Cpu.exec .sim (.unary .not rm) (abs d F) = .next c') :
    wp (do WriteRM (~~~(← ReadRM))) d fun _ s' => Rel s' c' := by
  simp only [Cpu.exec, Cpu.unary, Out.next.injEq] at hx
  subst hx
  obtain ⟨v, e, h16, _⟩ := ReadRM_eq d rm hok
  rw [wp_bind, wp_of_eq e]
  exact WriteRM_rel hF hok hz (by rw [t16_not, h16 hz F])

theorem neg_wp (hs : SafeD d) (hok : RMOk d rm) (hz : d.dsize = true)
    (hx : Cpu.exec .sim (.unary .neg rm) (abs d F) = .next c') :
    wp (do WriteRM (← negI (← ReadRM))) d fun _ s' => Rel s' c' := by
  simp only [Cpu.exec, Cpu.unary, Contract.sim, Out.next.injEq, Bool.false_eq_true, if_false] at hx
  subst hx
  obtain ⟨v, e, h16, _, h1, h2⟩ := ReadRM_bound (F := F) hs hok
  rw [wp_bind, wp_of_eq e]
  have hn : negI v d = .ok (-v) d := by
    have : v ≠ BitVec.intMin 32 := by
      intro h; rw [h] at h1; revert h1; decide
    simp only [negI, this, if_false]; rfl
  rw [wp_bind, wp_of_eq hn, noFlags_setRm16]
  exact WriteRM_rel (flagsOk_F0 _) hok hz (by rw [t16_neg, h16 hz])

theorem mul_wp (hok : RMOk d rm) (hz : d.dsize = true) {u : Un} (hu : u = .mul ∨ u = .imul)
    (hx : Cpu.exec .sim (.unary u rm) (abs d F) = .next c') :
    wp (do
      let m ← ReadRM
      modS fun s => { s with ax := s.ax * m, dx := 0 }) d fun _ s' => Rel s' c' := by
  obtain ⟨v, e, h16, _⟩ := ReadRM_eq d rm hok
  rw [wp_bind, wp_of_eq e, wp_modS]
  refine ⟨F0, ?_, flagsOk_F0 _⟩
  rcases hu with rfl | rfl <;> simp only [Cpu.exec, Cpu.unary, Contract.sim, Out.next.injEq] at hx <;> subst hx <;>
    rw [← h16 hz F] <;> simp only [abs, t16_mul, Cpu.noFlags] <;> rfl

theorem div_wp (hok : RMOk d rm) (hz : d.dsize = true) (hdx : d.dx = 0) (hax : ZExt d.ax) (hrm : ZExt (hostRM d rm))
    (hx : Cpu.exec .sim (.unary .div rm) (abs d F) = .next c') :
    wp (do
      let d ← ReadRM
      assertM ((← getReg DX) == 0)
      if d = 0 then fail .ub
      else modS fun s => { s with dx := s.ax % d, ax := s.ax / d }) d fun _ s' => Rel s' c' := by
  obtain ⟨v, e, h, hh⟩ := ReadRM_val hok
  have h16 : t16 v = (abs d F).rm16 rm := by have := h F; simpa [hz, Cpu.rd] using this
  rw [← hh hz] at hrm
  have hax' : d.ax.toNat < 2 ^ 16 := hax
  have hv' : v.toNat < 2 ^ 16 := hrm
  rw [wp_bind, wp_of_eq e, wp_bind, wp_getReg, wp_bind, wp_assertM _ (by rw [reg_DX, hdx]; rfl)]
  simp only [Cpu.exec, Cpu.unary] at hx
  rw [← h16] at hx
  have hn : (abs d F).dx.toNat * 2 ^ 16 + (abs d F).ax.toNat = d.ax.toNat := by
    show (t16 d.dx).toNat * 2 ^ 16 + (t16 d.ax).toNat = d.ax.toNat
    rw [hdx, zext_toNat hax]
    show 0 * 2 ^ 16 + d.ax.toNat = d.ax.toNat
    omega
  rw [hn, zext_toNat hrm] at hx
  split at hx
  · cases hx
  · rename_i hne
    have hv0 : v.toNat ≠ 0 := fun h => hne (Or.inl h)
    have : v ≠ 0 := fun h => hv0 (by rw [h]; rfl)
    rw [if_neg this, wp_modS]
    simp only [Out.next.injEq] at hx
    subst hx
    refine ⟨F0, ?_, flagsOk_F0 _⟩
    have e1 : t16 (d.ax / v) = BitVec.ofNat 16 (d.ax.toNat / v.toNat) := by
      apply BitVec.eq_of_toNat_eq; rw [BitVec.toNat_setWidth, BitVec.toNat_udiv]; rfl
    have e2 : t16 (d.ax % v) = BitVec.ofNat 16 (d.ax.toNat % v.toNat) := by
      apply BitVec.eq_of_toNat_eq; rw [BitVec.toNat_setWidth, BitVec.toNat_umod]; rfl
    simp only [abs, e1, e2, Cpu.noFlags]
    rfl

theorem sext_toInt {v : W} (h : SExt v) : (t16 v).toInt = v.toInt := by
  conv => rhs; rw [h.eq]
  rw [BitVec.toInt_signExtend_of_le (by omega)]

theorem idiv_wp (hok : RMOk d rm) (hz : d.dsize = true)
    (hdx : d.dx = (if d.ax &&& 0x8000 ≠ 0 then -1 else 0)) (hax : SExt d.ax) (hrm : SExt (hostRM d rm))
    (hx : Cpu.exec .sim (.unary .idiv rm) (abs d F) = .next c') :
    wp (do
      let d ← ReadRM
      let s ← getS
      assertM (s.dx == if s.ax &&& 0x8000 ≠ 0 then -1 else 0)
      if d = 0 ∨ (s.ax = BitVec.intMin 32 ∧ d = -1) then fail .ub
      else modS fun s => { s with dx := s.ax.srem d, ax := s.ax.sdiv d }) d fun _ s' => Rel s' c' := by
  obtain ⟨v, e, h, hh⟩ := ReadRM_val hok
  have h16 : t16 v = (abs d F).rm16 rm := by have := h F; simpa [hz, Cpu.rd] using this
  rw [← hh hz] at hrm
  rw [wp_bind, wp_of_eq e, wp_bind, wp_getS, wp_bind, wp_assertM _ (by rw [← hdx]; simp)]
  simp only [Cpu.exec, Cpu.unary] at hx
  rw [← h16] at hx
  have hn : ((abs d F).dx ++ (abs d F).ax).toInt = d.ax.toInt := by
    show (t16 d.dx ++ t16 d.ax).toInt = d.ax.toInt
    rw [← sext_toInt hax]
    have hm := and_8000_ne d.ax
    have key : ∀ x : Word, ((if x.msb then (-1 : Word) else 0) ++ x : BitVec 32).toInt = x.toInt := by
      intro x
      have : ((if x.msb then (-1 : Word) else 0) ++ x : BitVec 32) = x.signExtend 32 := by
        apply BitVec.eq_of_getLsbD_eq
        intro i hi
        rw [BitVec.getLsbD_append, BitVec.getLsbD_signExtend]
        by_cases h : i < 16
        · simp [h, hi]
        · have h2 : i - 16 < 16 := by omega
          cases hx : x.msb
          · simp [h]
          · rw [if_pos rfl, show (-1 : Word) = BitVec.allOnes 16 from rfl, BitVec.getLsbD_allOnes]; simp [h, hi, h2]
      rw [this, BitVec.toInt_signExtend_of_le (by omega)]
    rw [← key (t16 d.ax)]
    congr 2
    rw [hdx, ← hm]
    by_cases h8 : d.ax &&& 0x8000 ≠ 0
    · rw [if_pos h8, decide_eq_true h8]; rfl
    · rw [if_neg h8, decide_eq_false h8]; rfl
  rw [hn, sext_toInt hrm] at hx
  split at hx
  · cases hx
  · rename_i hne
    have hv0 : v ≠ 0 := fun h => hne (Or.inl (by rw [h]; rfl))
    have hmin : ¬ (d.ax = BitVec.intMin 32 ∧ v = -1) := by
      rintro ⟨h, _⟩
      have := hax.1
      rw [h] at this
      revert this; decide
    rw [if_neg (by rintro (h | h); exact hv0 h; exact hmin h), wp_modS]
    simp only [Out.next.injEq] at hx
    subst hx
    refine ⟨F0, ?_, flagsOk_F0 _⟩
    have e1 : t16 (d.ax.sdiv v) = BitVec.ofInt 16 (d.ax.toInt.tdiv v.toInt) := by
      rw [t16_ofInt, BitVec.toInt_sdiv]
      apply BitVec.eq_of_toInt_eq
      rw [BitVec.toInt_ofInt, BitVec.toInt_ofInt, Int.bmod_bmod_of_dvd (by decide)]
    have e2 : t16 (d.ax.srem v) = BitVec.ofInt 16 (d.ax.toInt.tmod v.toInt) := by
      rw [t16_ofInt, BitVec.toInt_srem]
    simp only [abs, e1, e2, Cpu.noFlags]
    rfl

/-! ### Indirect call -/

theorem callRm_wp (hs : SafeD d) (hF : FlagsOk F d.flags) (hok : RMOk d rm) (hz : d.dsize = true)
    (hsame : ∀ v, ((abs d F0).push v).rm16 rm = (abs d F0).rm16 rm)
    (hx : Cpu.exec .sim (.callRm rm) (abs d F) = .next c') :
    wp (do
      DoPush (← getS).ip
      let v ← ReadRM
      modS fun s => { s with ip := v }) d fun _ s' => Rel s' c' := by
  simp only [Cpu.exec, Out.next.injEq] at hx
  subst hx
  simp only [wp_bind, wp_getS]
  refine wp_mono (push_rel hs hF _) ?_
  rintro _ s' ⟨e1, hf, e⟩
  have hp0 : abs s' F0 = (abs d F0).push (t16 d.ip) := by
    have := congrArg (fun c => setF c F0) e
    exact this
  have hok' : RMOk s' rm := by
    obtain ⟨b, hm, h⟩ := hok
    refine ⟨b, by rw [e1]; exact hm, ?_⟩
    cases rm with
    | reg r => exact h
    | mem sg base disp =>
      obtain ⟨a1, a2, a3, a4⟩ := h
      have hb : baseValS s' base = baseValS d base := by
        have b1 : s'.bx = d.bx := by rw [e1]
        have b2 : s'.bp = d.bp := by rw [e1]
        have b3 : s'.si = d.si := by rw [e1]
        have b4 : s'.di = d.di := by rw [e1]
        cases base <;> simp only [baseValS, b1, b2, b3, b4]
      have ha : s'.addr = d.addr := by rw [e1]
      exact ⟨a1, by rw [e1]; exact a2, by rw [ha, hb]; exact a3, by rw [ha]; exact a4⟩
  have hz' : s'.dsize = true := by rw [e1]; exact hz
  obtain ⟨v, ev, h16, _⟩ := ReadRM_eq s' rm hok'
  rw [wp_of_eq ev, wp_modS]
  refine ⟨F, ?_, hf⟩
  have hv : t16 v = (abs d F).rm16 rm := by
    rw [h16 hz' F0, hp0, hsame]
    cases rm with
    | reg r => rw [Cpu.rm16, Cpu.rm16, abs_reg, abs_reg]
    | mem => rfl
  have hip : t16 d.ip = (abs d F).ip := rfl
  rw [hip] at e
  rw [← e, ← hv]
  simp only [abs]

end

end Sim86
