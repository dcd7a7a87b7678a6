import Verif.Sim86.Instrs
/-!
# One step of the simulator implements one step of the specification
-/
namespace Sim86
open I86
variable {σ : Type}

theorem repPlain_some {rep : Option Rep} {x : Option (Instr × List Byte)} {y} (h : repPlain rep x = some y) :
    rep = none ∧ x = some y := by
  cases rep with
  | none => exact ⟨rfl, h⟩
  | some r => cases h

theorem noSeg_some {sg : Option SReg} {x : Option (Instr × List Byte)} {y} (h : noSeg sg x = some y) :
    sg = none ∧ x = some y := by
  cases sg with
  | none => exact ⟨rfl, h⟩
  | some r => cases h

theorem repIs_some {r : Rep} {rep : Option Rep} {x : Option (Instr × List Byte)} {y} (h : repIs r rep x = some y) :
    rep = some r ∧ x = some y := by
  simp only [repIs] at h
  split at h
  · exact ⟨by assumption, h⟩
  · cases h

/-- The value of `rep` in the simulator. -/
def repByte : Option Rep → Byte
  | none => 0
  | some .repne => 0xf2
  | some .rep => 0xf3

section
variable {s : St σ} {F : Flags4} {sg : Option SReg} {k : Nat} {rest rest' : List Byte} {i : Instr} {c' : Cpu}

theorem word_bound (x : Word) : 0 ≤ (x.setWidth 32 : W).toInt ∧ (x.setWidth 32 : W).toInt < 2 ^ 16 := by
  rw [zext_toInt (by omega)]
  have := x.isLt
  omega

/-! ### Opcodes with a ModRM operand of word size -/

theorem shift1_wp (hs : Safe s) (hk : k + rest.length = 8)
    (ha : Ahead s rest (s.ip + BitVec.ofNat 32 k))
    (hd : withRM sg rest (fun r rm rest =>
        match r.val with
        | 4 => some (.shift .shl .one rm, rest)
        | 5 => some (.shift .shr .one rm, rest)
        | 7 => some (.shift .sar .one rm, rest)
        | _ => none) = some (i, rest'))
    (hal : Allowed s i) (hx : Cpu.exec .sim i (cpuAt s F rest') = .next c') :
    wp shift1 (dec s k none 0 (sg.map srIdx) sg.isNone) fun _ s' => Rel s' c' := by
  refine modrm_step hs hk ha hd _ _ ?_
  intro b k2 a2 sg2 rm rest2 hk2 ha2 hok hov hkont
  obtain ⟨op, hcode, hi, hr⟩ : ∃ op, (match op with | ShiftOp.shl => field b 3 = 4 | .shr => field b 3 = 5 | .sar => field b 3 = 7)
      ∧ Instr.shift op .one rm = i ∧ rest2 = rest' := by
    split at hkont <;> simp only [Option.some.injEq, Prod.mk.injEq, reduceCtorEq] at hkont
    · exact ⟨.shl, by apply Fin.ext; assumption, hkont.1, hkont.2⟩
    · exact ⟨.shr, by apply Fin.ext; assumption, hkont.1, hkont.2⟩
    · exact ⟨.sar, by apply Fin.ext; assumption, hkont.1, hkont.2⟩
  subst hi hr
  have hno : NoOvr rm ∧ ShiftOk op (hostRM s rm) := by
    cases op with
    | shl => exact ⟨hal, trivial⟩
    | shr => exact hal
    | sar => exact hal
  rw [← abs_dec_cpuAt (m := some b) (a := a2) (sg' := sg2) (dz := sg.isNone) hk2] at hx
  obtain ⟨hno, hsh⟩ := hno
  rw [← hostRM_dec s k2 (some b) a2 sg2 sg.isNone] at hsh
  generalize hdd : dec s k2 (some b) a2 sg2 sg.isNone = d at *
  have hz : d.dsize = true := by rw [← hdd]; simp [dec, hov hno]
  have hm : d.modrm = some b := by rw [← hdd]; rfl
  obtain ⟨v, e, hv, hh⟩ := ReadRM_val hok
  have hv := hv F
  simp only [hz, if_true, Cpu.rd] at hv
  rw [← hh hz] at hsh
  rw [wp_bind, wp_of_eq e, wp_bind, wp_of_eq (theModrm_eq hm)]
  cases op with
  | shl =>
    simp only at hcode
    rw [hcode]
    exact shift_rel hok hz .shl v 1 (by omega) (by omega) hv hsh hx _ _ rfl (by simp [simShift])
  | shr =>
    simp only at hcode
    rw [hcode]
    exact shift_rel hok hz .shr v 1 (by omega) (by omega) hv hsh hx _ _ rfl (by simp [simShift])
  | sar =>
    simp only at hcode
    rw [hcode]
    exact shift_rel hok hz .sar v 1 (by omega) (by omega) hv hsh hx _ _ rfl (by simp [simShift])

theorem shiftCl_wp (hs : Safe s) (hk : k + rest.length = 8)
    (ha : Ahead s rest (s.ip + BitVec.ofNat 32 k))
    (hd : withRM sg rest (fun r rm rest =>
        match r.val with
        | 4 => some (.shift .shl .cl rm, rest)
        | 5 => some (.shift .shr .cl rm, rest)
        | 7 => some (.shift .sar .cl rm, rest)
        | _ => none) = some (i, rest'))
    (hal : Allowed s i) (hx : Cpu.exec .sim i (cpuAt s F rest') = .next c') :
    wp shiftCl (dec s k none 0 (sg.map srIdx) sg.isNone) fun _ s' => Rel s' c' := by
  refine modrm_step hs hk ha hd _ _ ?_
  intro b k2 a2 sg2 rm rest2 hk2 ha2 hok hov hkont
  obtain ⟨op, hcode, hi, hr⟩ : ∃ op, (match op with | ShiftOp.shl => field b 3 = 4 | .shr => field b 3 = 5 | .sar => field b 3 = 7)
      ∧ Instr.shift op .cl rm = i ∧ rest2 = rest' := by
    split at hkont <;> simp only [Option.some.injEq, Prod.mk.injEq, reduceCtorEq] at hkont
    · exact ⟨.shl, by apply Fin.ext; assumption, hkont.1, hkont.2⟩
    · exact ⟨.shr, by apply Fin.ext; assumption, hkont.1, hkont.2⟩
    · exact ⟨.sar, by apply Fin.ext; assumption, hkont.1, hkont.2⟩
  subst hi hr
  have hno : NoOvr rm ∧ ShiftOk op (hostRM s rm) := by
    cases op with
    | shl => exact ⟨hal, trivial⟩
    | shr => exact hal
    | sar => exact hal
  rw [← abs_dec_cpuAt (m := some b) (a := a2) (sg' := sg2) (dz := sg.isNone) hk2] at hx
  obtain ⟨hno, hsh⟩ := hno
  rw [← hostRM_dec s k2 (some b) a2 sg2 sg.isNone] at hsh
  generalize hdd : dec s k2 (some b) a2 sg2 sg.isNone = d at *
  have hz : d.dsize = true := by rw [← hdd]; simp [dec, hov hno]
  have hm : d.modrm = some b := by rw [← hdd]; rfl
  obtain ⟨v, e, hv, hh⟩ := ReadRM_val hok
  have hv := hv F
  simp only [hz, if_true, Cpu.rd] at hv
  rw [← hh hz] at hsh
  rw [wp_bind, wp_of_eq e, wp_bind, wp_getReg, wp_bind, wp_of_eq (theModrm_eq hm)]
  simp only [Cpu.exec] at hx
  have hcl : (Cpu.lo (abs d F).cx) = t8 d.cx := (t8_eq_lo d.cx).symm
  rw [hcl] at hx
  have h15 : (d.cx &&& 15).toNat = d.cx.toNat % 16 := by
    rw [BitVec.toNat_and]; exact Nat.and_two_pow_sub_one_eq_mod _ 4
  have h8 : (t8 d.cx).toNat = d.cx.toNat % 256 := BitVec.toNat_setWidth ..
  have hlt : (t8 d.cx).toNat < 16 := by
    apply Classical.byContradiction
    intro h
    simp only [Cpu.shift] at hx
    rw [if_neg (by omega), if_pos (by omega)] at hx
    cases hx
  have hcnt : (d.cx &&& 15).toNat = (t8 d.cx).toNat := by omega
  rw [reg_CX, hcnt]
  by_cases h0 : (t8 d.cx).toNat = 0
  · rw [h0] at hx ⊢
    simp only [Cpu.shift, if_true, Contract.sim, Bool.false_eq_true, if_false, Out.next.injEq] at hx
    subst hx
    cases op with
    | shl =>
      simp only at hcode
      rw [hcode]
      simp only [if_true, BitVec.shiftLeft_zero]
      exact shift_zero_rel hok hz v hv _
    | shr =>
      simp only at hcode
      rw [hcode]
      simp only [if_true, BitVec.ushiftRight_zero]
      exact shift_zero_rel hok hz v hv _
    | sar =>
      simp only at hcode
      rw [hcode]
      simp only [if_true, BitVec.sshiftRight_zero]
      exact shift_zero_rel hok hz v hv _
  · cases op with
    | shl =>
      simp only at hcode
      rw [hcode]
      exact shift_rel hok hz .shl v _ (by omega) hlt hv hsh hx _ _ rfl (if_neg h0)
    | shr =>
      simp only at hcode
      rw [hcode]
      exact shift_rel hok hz .shr v _ (by omega) hlt hv hsh hx _ _ rfl (if_neg h0)
    | sar =>
      simp only at hcode
      rw [hcode]
      exact shift_rel hok hz .sar v _ (by omega) hlt hv hsh hx _ _ rfl (if_neg h0)

theorem group3_wp (hs : Safe s) (hF : FlagsOk F s.flags) (hk : k + rest.length = 8)
    (ha : Ahead s rest (s.ip + BitVec.ofNat 32 k))
    (hd : withRM sg rest (fun r rm rest =>
        match r.val with
        | 2 => some (.unary .not rm, rest)
        | 3 => some (.unary .neg rm, rest)
        | 4 => some (.unary .mul rm, rest)
        | 5 => some (.unary .imul rm, rest)
        | 6 => some (.unary .div rm, rest)
        | 7 => some (.unary .idiv rm, rest)
        | _ => none) = some (i, rest'))
    (hal : Allowed s i) (hx : Cpu.exec .sim i (cpuAt s F rest') = .next c') :
    wp group3 (dec s k none 0 (sg.map srIdx) sg.isNone) fun _ s' => Rel s' c' := by
  refine modrm_step hs hk ha hd _ _ ?_
  intro b k2 a2 sg2 rm rest2 hk2 ha2 hok hov hkont
  have hsd := Safe.dec hs (show k2 ≤ 8 by omega) (some b) a2 sg2 sg.isNone
  have hhost := hostRM_dec s k2 (some b) a2 sg2 sg.isNone rm
  have hdx : (dec s k2 (some b) a2 sg2 sg.isNone).dx = s.dx := rfl
  have hax : (dec s k2 (some b) a2 sg2 sg.isNone).ax = s.ax := rfl
  have hFd : FlagsOk F (dec s k2 (some b) a2 sg2 sg.isNone).flags := hF
  have hz : sg = none → (dec s k2 (some b) a2 sg2 sg.isNone).dsize = true := by
    intro h; simp [dec, h]
  have hm : (dec s k2 (some b) a2 sg2 sg.isNone).modrm = some b := rfl
  have hab := abs_dec_cpuAt (s := s) (F := F) (m := some b) (a := a2) (sg' := sg2) (dz := sg.isNone) hk2
  generalize dec s k2 (some b) a2 sg2 sg.isNone = d at *
  rw [wp_bind, wp_of_eq (theModrm_eq hm)]
  split at hkont <;> simp only [Option.some.injEq, Prod.mk.injEq, reduceCtorEq] at hkont <;>
    obtain ⟨rfl, rfl⟩ := hkont <;> rw [← hab] at hx
  · rename_i hr
    rw [show field b 3 = 2 from Fin.ext hr]
    exact not_wp hFd hok (hz (hov hal)) hx
  · rename_i hr
    rw [show field b 3 = 3 from Fin.ext hr]
    exact neg_wp hsd hok (hz (hov hal)) hx
  · rename_i hr
    rw [show field b 3 = 4 from Fin.ext hr]
    exact mul_wp hok (hz (hov hal)) (Or.inl rfl) hx
  · rename_i hr
    rw [show field b 3 = 5 from Fin.ext hr]
    exact mul_wp hok (hz (hov hal)) (Or.inr rfl) hx
  · rename_i hr
    rw [show field b 3 = 6 from Fin.ext hr]
    obtain ⟨h1, h2, h3, h4⟩ := hal
    exact div_wp hok (hz (hov h1)) (by rw [hdx]; exact h2) (by rw [hax]; exact h3) (by rw [hhost]; exact h4) hx
  · rename_i hr
    rw [show field b 3 = 7 from Fin.ext hr]
    obtain ⟨h1, h2, h3, h4⟩ := hal
    exact idiv_wp hok (hz (hov h1)) (by rw [hdx, hax]; exact h2) (by rw [hax]; exact h3) (by rw [hhost]; exact h4) hx

theorem groupFE_wp (hs : Safe s) (hF : FlagsOk F s.flags) (hk : k + rest.length = 8)
    (ha : Ahead s rest (s.ip + BitVec.ofNat 32 k))
    (hd : withRM sg rest (fun r rm rest =>
        match r.val with
        | 0 => some (.incDec false false rm, rest)
        | 1 => some (.incDec true false rm, rest)
        | _ => none) = some (i, rest'))
    (hx : Cpu.exec .sim i (cpuAt s F rest') = .next c') :
    wp group45 (dec s k none 0 (sg.map srIdx) false) fun _ s' => Rel s' c' := by
  refine modrm_step hs hk ha hd _ _ ?_
  intro b k2 a2 sg2 rm rest2 hk2 ha2 hok hov hkont
  have hsd := Safe.dec hs (show k2 ≤ 8 by omega) (some b) a2 sg2 false
  have hFd : FlagsOk F (dec s k2 (some b) a2 sg2 false).flags := hF
  have hm : (dec s k2 (some b) a2 sg2 false).modrm = some b := rfl
  have hab := abs_dec_cpuAt (s := s) (F := F) (m := some b) (a := a2) (sg' := sg2) (dz := false) hk2
  have hz : (dec s k2 (some b) a2 sg2 false).dsize = false := rfl
  generalize dec s k2 (some b) a2 sg2 false = d at *
  rw [wp_bind, wp_of_eq (theModrm_eq hm)]
  split at hkont <;> simp only [Option.some.injEq, Prod.mk.injEq, reduceCtorEq] at hkont <;>
    obtain ⟨rfl, rfl⟩ := hkont <;> rw [← hab] at hx
  · rename_i hr
    rw [show field b 3 = 0 from Fin.ext hr]
    exact incDec_wp hsd hFd hok false false hz hx
  · rename_i hr
    rw [show field b 3 = 1 from Fin.ext hr]
    exact incDec_wp hsd hFd hok true false hz hx

theorem push_ip (c : Cpu) (x v : Word) : ({ c with ip := x } : Cpu).push v = { c.push v with ip := x } := rfl

theorem groupFF_wp (hs : Safe s) (hF : FlagsOk F s.flags) (hk : k + rest.length = 8)
    (ha : Ahead s rest (s.ip + BitVec.ofNat 32 k))
    (hd : withRM sg rest (fun r rm rest =>
        match r.val with
        | 0 => some (.incDec false true rm, rest)
        | 1 => some (.incDec true true rm, rest)
        | 2 => some (.callRm rm, rest)
        | _ => none) = some (i, rest'))
    (hal : Allowed s i) (hx : Cpu.exec .sim i (cpuAt s F rest') = .next c') :
    wp group45 (dec s k none 0 (sg.map srIdx) sg.isNone) fun _ s' => Rel s' c' := by
  refine modrm_step hs hk ha hd _ _ ?_
  intro b k2 a2 sg2 rm rest2 hk2 ha2 hok hov hkont
  have hsd := Safe.dec hs (show k2 ≤ 8 by omega) (some b) a2 sg2 sg.isNone
  have hFd : FlagsOk F (dec s k2 (some b) a2 sg2 sg.isNone).flags := hF
  have hz : sg = none → (dec s k2 (some b) a2 sg2 sg.isNone).dsize = true := by
    intro h; simp [dec, h]
  have hm : (dec s k2 (some b) a2 sg2 sg.isNone).modrm = some b := rfl
  have hab := abs_dec_cpuAt (s := s) (F := F) (m := some b) (a := a2) (sg' := sg2) (dz := sg.isNone) hk2
  have hab0 := abs_dec s F0 k2 (some b) a2 sg2 sg.isNone
  generalize dec s k2 (some b) a2 sg2 sg.isNone = d at *
  rw [wp_bind, wp_of_eq (theModrm_eq hm)]
  split at hkont <;> simp only [Option.some.injEq, Prod.mk.injEq, reduceCtorEq] at hkont <;>
    obtain ⟨rfl, rfl⟩ := hkont <;> rw [← hab] at hx
  · rename_i hr
    rw [show field b 3 = 0 from Fin.ext hr]
    exact incDec_wp hsd hFd hok false true (hz (hov hal)) hx
  · rename_i hr
    rw [show field b 3 = 1 from Fin.ext hr]
    exact incDec_wp hsd hFd hok true true (hz (hov hal)) hx
  · rename_i hr
    rw [show field b 3 = 2 from Fin.ext hr]
    obtain ⟨h1, h2⟩ := hal
    refine callRm_wp hsd hFd hok (hz (hov h1)) ?_ hx
    intro v
    rw [hab0, push_ip, rm16_ip, rm16_ip]
    exact h2 v

theorem op8c_wp (hs : Safe s) (hF : FlagsOk F s.flags) (hk : k + rest.length = 8)
    (ha : Ahead s rest (s.ip + BitVec.ofNat 32 k))
    (hd : withRM sg rest (fun r rm rest =>
        if r.val < 4 then some (.movRmSeg rm (SReg.ofCode r.val), rest) else none) = some (i, rest'))
    (hal : Allowed s i) (hx : Cpu.exec .sim i (cpuAt s F rest') = .next c') :
    wp (do
      ModRM
      let r := field (← theModrm) 3
      if h : r.val < 4 then WriteRM (← getSreg ⟨r.val, h⟩) else fail .assertFail)
      (dec s k none 0 (sg.map srIdx) sg.isNone) fun _ s' => Rel s' c' := by
  refine modrm_step hs hk ha hd _ _ ?_
  intro b k2 a2 sg2 rm rest2 hk2 ha2 hok hov hkont
  rw [wp_bind, wp_of_eq (theModrm_eq rfl)]
  simp only
  split at hkont
  · rename_i h4
    simp only [Option.some.injEq, Prod.mk.injEq] at hkont
    obtain ⟨rfl, rfl⟩ := hkont
    rw [← abs_dec_cpuAt (m := some b) (a := a2) (sg' := sg2) (dz := sg.isNone) hk2] at hx
    rw [dif_pos h4]
    have e : (⟨(field b 3).val, h4⟩ : Fin 4) = srIdx (SReg.ofCode (field b 3).val) := by
      revert h4
      generalize field b 3 = r
      match r with
      | 0 | 1 | 2 | 3 => intro _; rfl
      | 4 | 5 | 6 | 7 => intro h; exact absurd h (by decide)
    have hno : NoOvr rm := hal
    have := movRmSeg_wp (F := F) (by exact hF) hok (by simp [dec, hov hno]) _ hx
    rw [← e] at this
    exact this
  · cases hkont

theorem op8e_wp (hs : Safe s) (hF : FlagsOk F s.flags) (hk : k + rest.length = 8)
    (ha : Ahead s rest (s.ip + BitVec.ofNat 32 k))
    (hd : withRM sg rest (fun r rm rest =>
        if r.val < 4 ∧ r.val ≠ 1 then some (.movSegRm (SReg.ofCode r.val) rm, rest) else none) = some (i, rest'))
    (hal : Allowed s i) (hx : Cpu.exec .sim i (cpuAt s F rest') = .next c') :
    wp (do
      ModRM
      let r := field (← theModrm) 3
      if h : r.val < 4 then putSreg ⟨r.val, h⟩ (← ReadRM) else fail .assertFail)
      (dec s k none 0 (sg.map srIdx) sg.isNone) fun _ s' => Rel s' c' := by
  refine modrm_step hs hk ha hd _ _ ?_
  intro b k2 a2 sg2 rm rest2 hk2 ha2 hok hov hkont
  rw [wp_bind, wp_of_eq (theModrm_eq rfl)]
  simp only
  split at hkont
  · rename_i h4
    simp only [Option.some.injEq, Prod.mk.injEq] at hkont
    obtain ⟨rfl, rfl⟩ := hkont
    rw [← abs_dec_cpuAt (m := some b) (a := a2) (sg' := sg2) (dz := sg.isNone) hk2] at hx
    rw [dif_pos h4.1]
    have e : (⟨(field b 3).val, h4.1⟩ : Fin 4) = srIdx (SReg.ofCode (field b 3).val) := by
      revert h4
      generalize field b 3 = r
      match r with
      | 0 | 1 | 2 | 3 => intro _; rfl
      | 4 | 5 | 6 | 7 => intro h; exact absurd h.1 (by decide)
    have hno : NoOvr rm := hal
    have := movSegRm_wp (F := F) (by exact hF) hok (by simp [dec, hov hno]) _ hx
    rw [← e] at this
    exact this
  · cases hkont

theorem op8d_wp (hs : Safe s) (hF : FlagsOk F s.flags) (hk : k + rest.length = 8)
    (ha : Ahead s rest (s.ip + BitVec.ofNat 32 k)) {dz}
    (hd : withRM sg rest (fun r rm rest =>
        match rm with
        | .mem _ base disp => some (.lea r base disp, rest)
        | .reg _ => none) = some (i, rest'))
    (hx : Cpu.exec .sim i (cpuAt s F rest') = .next c') :
    wp (do
      ModRM
      putReg (field (← theModrm) 3) (← getS).addr)
      (dec s k none 0 (sg.map srIdx) dz) fun _ s' => Rel s' c' := by
  refine modrm_step hs hk ha hd _ _ ?_
  intro b k2 a2 sg2 rm rest2 hk2 ha2 hok hov hkont
  rw [wp_bind, wp_of_eq (theModrm_eq rfl), wp_bind, wp_getS]
  cases rm with
  | reg r => cases hkont
  | mem x base disp =>
    simp only [Option.some.injEq, Prod.mk.injEq] at hkont
    obtain ⟨rfl, rfl⟩ := hkont
    rw [← abs_dec_cpuAt (m := some b) (a := a2) (sg' := sg2) (dz := dz) hk2] at hx
    exact lea_wp (F := F) (by exact hF) hok _ hx

theorem opc6_wp (hs : Safe s) (hF : FlagsOk F s.flags) (hk : k + rest.length = 8)
    (ha : Ahead s rest (s.ip + BitVec.ofNat 32 k))
    (hd : withRM sg rest (fun r rm rest =>
        if r.val = 0 then
          match rest with
          | b :: rest => some (.movImm false rm (b.zeroExtend 16), rest)
          | [] => none
        else none) = some (i, rest'))
    (hx : Cpu.exec .sim i (cpuAt s F rest') = .next c') :
    wp (do
      ModRM
      WriteRM (← ReadIByte))
      (dec s k none 0 (sg.map srIdx) false) fun _ s' => Rel s' c' := by
  refine modrm_step hs hk ha hd _ _ ?_
  intro b k2 a2 sg2 rm rest2 hk2 ha2 hok hov hkont
  split at hkont
  · cases rest2 with
    | nil => cases hkont
    | cons b2 rest3 =>
      simp only [Option.some.injEq, Prod.mk.injEq] at hkont
      obtain ⟨rfl, rfl⟩ := hkont
      simp only [List.length_cons] at hk2
      rw [wp_bind, wp_ReadIByte hs (by omega) ha2]
      rw [← abs_dec_cpuAt (k := k2 + 1) (m := some b) (a := a2) (sg' := sg2) (dz := false) (by omega)] at hx
      refine movImm_wp (F := F) (by exact hF) (by exact hok) false rfl ?_ hx
      show t8 _ = Cpu.lo _
      rw [t8, setWidth8_32, Cpu.lo, BitVec.setWidth_setWidth_of_le _ (by omega), BitVec.setWidth_eq]
  · cases hkont

theorem opc7_wp (hs : Safe s) (hF : FlagsOk F s.flags) (hk : k + rest.length = 8)
    (ha : Ahead s rest (s.ip + BitVec.ofNat 32 k))
    (hd : withRM sg rest (fun r rm rest =>
        if r.val = 0 then
          match rest with
          | lo :: hi :: rest => some (.movImm true rm (word lo hi), rest)
          | _ => none
        else none) = some (i, rest'))
    (hal : Allowed s i) (hx : Cpu.exec .sim i (cpuAt s F rest') = .next c') :
    wp (do
      ModRM
      WriteRM (← Imm16))
      (dec s k none 0 (sg.map srIdx) sg.isNone) fun _ s' => Rel s' c' := by
  refine modrm_step hs hk ha hd _ _ ?_
  intro b k2 a2 sg2 rm rest2 hk2 ha2 hok hov hkont
  split at hkont
  · match rest2, hkont, ha2, hk2 with
    | [], hkont, _, _ => cases hkont
    | [_], hkont, _, _ => cases hkont
    | lo :: hi :: rest3, hkont, ha2, hk2 =>
      simp only [Option.some.injEq, Prod.mk.injEq] at hkont
      obtain ⟨rfl, rfl⟩ := hkont
      simp only [List.length_cons] at hk2
      rw [wp_bind, wp_Imm16 hs (by omega) ha2]
      rw [← abs_dec_cpuAt (k := k2 + 2) (m := some b) (a := a2) (sg' := sg2) (dz := sg.isNone) (by omega)] at hx
      have hno : NoOvr rm := hal
      refine movImm_wp (F := F) (by exact hF) (by exact hok) true (by simp [dec, hov hno]) ?_ hx
      exact t16_zext _
  · cases hkont

/-! ### Opcodes without ModRM -/

/-- A one-byte opcode followed by a displacement or immediate word. -/
theorem imm16_step (hs : Safe s) (hk : k + rest.length = 8) (ha : Ahead s rest (s.ip + BitVec.ofNat 32 k))
    {f : Word → Instr} {dz sg'}
    (hd : (match rest with
      | lo :: hi :: rest => some (f (word lo hi), rest)
      | _ => none) = some (i, rest')) (Q : W → St σ → Prop)
    (h : ∀ x : Word, i = f x → abs (dec s (k + 2) none 0 sg' dz) F = cpuAt s F rest' → k + 2 ≤ 8 →
      Q (x.setWidth 32) (dec s (k + 2) none 0 sg' dz)) :
    wp Imm16 (dec s k none 0 sg' dz) Q := by
  match rest, hd, ha, hk with
  | [], hd, _, _ => cases hd
  | [_], hd, _, _ => cases hd
  | lo :: hi :: rest3, hd, ha, hk =>
    simp only [Option.some.injEq, Prod.mk.injEq] at hd
    obtain ⟨rfl, rfl⟩ := hd
    simp only [List.length_cons] at hk
    rw [wp_Imm16 hs (by omega) ha]
    exact h _ rfl (abs_dec_cpuAt (by omega)) (by omega)

theorem imm8_step (hs : Safe s) (hk : k + rest.length = 8) (ha : Ahead s rest (s.ip + BitVec.ofNat 32 k))
    {f : Byte → Instr} {dz sg'}
    (hd : (match rest with
      | b :: rest => some (f b, rest)
      | [] => none) = some (i, rest')) (Q : W → St σ → Prop)
    (h : ∀ x : Byte, i = f x → abs (dec s (k + 1) none 0 sg' dz) F = cpuAt s F rest' → k + 1 ≤ 8 →
      Q (x.setWidth 32) (dec s (k + 1) none 0 sg' dz)) :
    wp ReadIByte (dec s k none 0 sg' dz) Q := by
  match rest, hd, ha, hk with
  | [], hd, _, _ => cases hd
  | b :: rest3, hd, ha, hk =>
    simp only [Option.some.injEq, Prod.mk.injEq] at hd
    obtain ⟨rfl, rfl⟩ := hd
    simp only [List.length_cons] at hk
    rw [wp_ReadIByte hs (by omega) ha]
    exact h _ rfl (abs_dec_cpuAt (by omega)) (by omega)

theorem schar_bound (x : W) : -2 ^ 16 ≤ (schar x).toInt ∧ (schar x).toInt < 2 ^ 16 := by
  have := schar_toInt x; omega

/-- Everything about the state in which an operand-less instruction is executed. -/
theorem plain_step (hk : k + rest.length = 8) (hs : Safe s) (hF : FlagsOk F s.flags) {sg' dz} :
    SafeD (dec s k none 0 sg' dz) ∧ FlagsOk F (dec s k none 0 sg' dz).flags ∧
      abs (dec s k none 0 sg' dz) F = cpuAt s F rest :=
  ⟨Safe.dec hs (by omega) _ _ _ _, hF, abs_dec_cpuAt hk⟩

end

section
variable {s : St σ} {F : Flags4} {sg : Option SReg} {rep : Option Rep} {op : Byte} {k : Nat} {rest rest' : List Byte} {i : Instr} {c' : Cpu}

theorem field_eq (b : Byte) (k : Nat) : I86.field b k = Sim86.field b k := rfl

theorem srIdx_ofCode : ∀ m, m < 4 → (⟨m % 4, Nat.mod_lt _ (by omega)⟩ : Fin 4) = srIdx (SReg.ofCode m) := by decide

/-- Opcodes A0..A3. -/
theorem opA0_wp (hs : Safe s) (hF : FlagsOk F s.flags) (hk : k + rest.length = 8)
    (ha : Ahead s rest (s.ip + BitVec.ofNat 32 k)) (store w : Bool) {sg' dz}
    (hd : (match rest with
      | lo :: hi :: rest => some ((if store then Instr.movMemAcc w sg (word lo hi) else .movAccMem w sg (word lo hi)), rest)
      | _ => none) = some (i, rest')) (hal : Allowed s i)
    (hx : Cpu.exec .sim i (cpuAt s F rest') = .next c') :
    wp (movAcc store w) (dec s k none 0 sg' dz) fun _ s' => Rel s' c' := by
  unfold movAcc
  rw [wp_bind]
  refine imm16_step (F := F) (f := fun x => if store then Instr.movMemAcc w sg x else .movAccMem w sg x) hs hk ha hd _ ?_
  intro x hi hab hk2
  subst hi
  rw [← hab] at hx
  have : sg = none := by cases store <;> exact hal
  subst this
  rw [wp_bind, wp_getS]
  exact movAcc_wp (by exact hF) store w (t16_zext _) (word_bound _) hx

theorem execLow_wp (H : Host σ) (hs : Safe s) (hF : FlagsOk F s.flags) (hk : k + rest.length = 8)
    (ha : Ahead s rest (s.ip + BitVec.ofNat 32 k)) (hn : op.toNat < 0x40)
    (hd : decodeOp sg rep op rest = some (i, rest'))
    (hx : Cpu.exec .sim i (cpuAt s F rest') = .next c') :
    wp (execInst H (repByte rep) op) (dec s k none 0 (sg.map srIdx) sg.isNone) fun _ s' => Rel s' c' := by
  simp only [decodeOp, hn, if_true] at hd
  simp only [execInst, hn, if_true]
  rw [wp_bind, wp_setDsize]
  change wp _ (dec s k none 0 (sg.map srIdx) (op.toNat % 2 == 1)) _
  generalize hw : (op.toNat % 2 == 1) = w at *
  rw [← opOf_field] at hd
  split at hd
  · rename_i h
    rw [h]
    exact ALUOp_wp hs hF hk ha (field op 3) false (repPlain_some hd).2 hx
  · rename_i h
    rw [h]
    exact ALUOp_wp hs hF hk ha (field op 3) true (repPlain_some hd).2 hx
  · rename_i h
    rw [h]
    exact aluAcc_wp hs hF hk ha (field op 3) w (noSeg_some (repPlain_some hd).2).2 hx
  · rename_i h0 h1 h2
    have h3 : op.toNat % 8 / 2 = 3 := by
      have := Nat.div_lt_of_lt_mul (show op.toNat % 8 < 2 * 4 by omega)
      generalize op.toNat % 8 / 2 = z at *
      match z, h0, h1, h2, this with
      | 3, _, _, _, _ => rfl
      | 0, h, _, _, _ => exact absurd rfl h
      | 1, _, h, _, _ => exact absurd rfl h
      | 2, _, _, h, _ => exact absurd rfl h
    rw [h3]
    simp only
    split at hd
    · rename_i h20
      rw [if_pos (by omega)]
      have hd := (noSeg_some (repPlain_some hd).2).2
      have e : (⟨op.toNat / 8 % 4, by omega⟩ : Fin 4) = srIdx (SReg.ofCode (op.toNat / 8)) := by
        have : op.toNat / 8 < 4 := by omega
        exact srIdx_ofCode _ this
      rw [e]
      cases w with
      | true =>
        simp only [if_true] at hd ⊢
        split at hd
        · cases hd
        · cases hd
          obtain ⟨h1, h2, h3⟩ := plain_step (sg' := sg.map srIdx) (dz := true) hk hs hF
          rw [← h3] at hx
          exact popSeg_wp h1 h2 _ hx
      | false =>
        simp only [Bool.false_eq_true, if_false] at hd ⊢
        cases hd
        obtain ⟨h1, h2, h3⟩ := plain_step (sg' := sg.map srIdx) (dz := false) hk hs hF
        rw [← h3] at hx
        exact pushSeg_wp h1 h2 _ hx
    · cases hd

theorem execMid_wp (H : Host σ) (hs : Safe s) (hF : FlagsOk F s.flags) (hk : k + rest.length = 8)
    (ha : Ahead s rest (s.ip + BitVec.ofNat 32 k)) (hn : 0x40 ≤ op.toNat)
    (hn' : op.toNat < 0x80 ∨ 0x90 ≤ op.toNat ∧ op.toNat < 0x98 ∨ 0xb0 ≤ op.toNat ∧ op.toNat < 0xc0)
    (hd : decodeOp sg rep op rest = some (i, rest'))
    (hx : Cpu.exec .sim i (cpuAt s F rest') = .next c') :
    wp (execInst H (repByte rep) op) (dec s k none 0 (sg.map srIdx) sg.isNone) fun _ s' => Rel s' c' := by
  have c0 : ¬ op.toNat < 0x40 := by omega
  simp only [decodeOp, c0, if_false] at hd
  simp only [execInst, c0, if_false]
  have reg_step : ∀ m, i = m → rest = rest' → abs (dec s k none 0 (sg.map srIdx) sg.isNone) F = cpuAt s F rest' := by
    intro m _ h; subst h; exact (plain_step hk hs hF).2.2
  split at hd
  · rename_i h
    simp only [h, if_true]
    obtain ⟨hr, hd⟩ := repPlain_some hd
    obtain ⟨hsg, hd⟩ := noSeg_some hd
    subst hr hsg; cases hd
    obtain ⟨h1, h2, h3⟩ := plain_step (sg' := none) (dz := true) hk hs hF
    rw [← h3] at hx
    rw [wp_bind, wp_modS]
    exact incDec_wp (d := dec s k (some (regModrm (field op 0))) 0 none true) (Safe.dec hs (by omega) _ _ _ _) h2 (RMOk_reg' (d := dec s k none 0 none true) _) false true rfl hx
  split at hd
  · rename_i h0 h
    simp only [h0, h, if_true, if_false]
    obtain ⟨hr, hd⟩ := repPlain_some hd
    obtain ⟨hsg, hd⟩ := noSeg_some hd
    subst hr hsg; cases hd
    obtain ⟨h1, h2, h3⟩ := plain_step (sg' := none) (dz := true) hk hs hF
    rw [← h3] at hx
    rw [wp_bind, wp_modS]
    exact incDec_wp (d := dec s k (some (regModrm (field op 0))) 0 none true) (Safe.dec hs (by omega) _ _ _ _) h2 (RMOk_reg' (d := dec s k none 0 none true) _) true true rfl hx
  split at hd
  · rename_i h0 h1 h
    simp only [h0, h1, h, if_true, if_false]
    obtain ⟨hr, hd⟩ := repPlain_some hd
    obtain ⟨hsg, hd⟩ := noSeg_some hd
    subst hr hsg; cases hd
    obtain ⟨h1, h2, h3⟩ := plain_step (sg' := none) (dz := true) hk hs hF
    rw [← h3] at hx
    exact push_wp h1 h2 _ hx
  split at hd
  · rename_i h0 h1 h2 h
    simp only [h0, h1, h2, h, if_true, if_false]
    obtain ⟨hr, hd⟩ := repPlain_some hd
    obtain ⟨hsg, hd⟩ := noSeg_some hd
    subst hr hsg; cases hd
    obtain ⟨h1, h2, h3⟩ := plain_step (sg' := none) (dz := true) hk hs hF
    rw [← h3] at hx
    exact pop_wp h1 h2 _ hx
  split at hd
  · cases hd
  split at hd
  · rename_i h0 h1 h2 h3 h4 h
    have h5 : 0x70 ≤ op.toNat ∧ op.toNat < 0x80 := by omega
    simp only [h0, h1, h2, h3, h5, and_self, if_true, if_false, JCC]
    obtain ⟨hr, hd⟩ := repPlain_some hd
    obtain ⟨hsg, hd⟩ := noSeg_some hd
    subst hr hsg
    rw [wp_bind]
    refine imm8_step (F := F) hs hk ha
      (f := fun b => .jcc ⟨op.toNat % 16, Nat.mod_lt _ (by omega)⟩ (b.signExtend 16)) hd _ ?_
    intro x hi hab hk2
    subst hi
    rw [← hab] at hx
    rw [wp_bind, wp_getS]
    obtain ⟨j, hj, hw⟩ := jcc_wp (rel := schar (x.setWidth 32)) (Safe.dec hs hk2 none 0 none true) (by exact hF) _ (schar_bound _) (by rw [t16_schar]; exact hx)
    simp only [Option.map_none, Option.isNone_none] at *
    rw [hj]
    exact hw
  split at hd
  · rename_i h0 h1 h2 h3 h4 h5 h
    have h6 : ¬ (0x70 ≤ op.toNat ∧ op.toNat < 0x80) := by omega
    simp only [h0, h1, h2, h3, h6, h, and_self, if_true, if_false]
    obtain ⟨hr, hd⟩ := repPlain_some hd
    obtain ⟨hsg, hd⟩ := noSeg_some hd
    subst hr hsg; cases hd
    obtain ⟨h1, h2, h3⟩ := plain_step (sg' := none) (dz := true) hk hs hF
    rw [← h3] at hx
    exact xchg_wp h2 _ hx
  split at hd
  · rename_i h0 h1 h2 h3 h4 h5 h7 h
    have h6 : ¬ (0x70 ≤ op.toNat ∧ op.toNat < 0x80) := by omega
    simp only [h0, h1, h2, h3, h6, h7, h, and_self, if_true, if_false]
    obtain ⟨hr, hd⟩ := repPlain_some hd
    obtain ⟨hsg, hd⟩ := noSeg_some hd
    subst hr hsg
    rw [wp_bind, wp_setDsize, wp_bind]
    change wp _ (dec s k none 0 none false) _
    refine imm8_step (F := F) hs hk ha
      (f := fun b => .movImm false (.reg (field op 0)) (b.zeroExtend 16)) hd _ ?_
    intro x hi hab hk2
    subst hi
    rw [← hab] at hx
    obtain ⟨s', e', hf, _, g8⟩ := WriteReg_eq (dec s (k + 1) none 0 none false) (field op 0) (x.setWidth 32)
    rw [wp_of_eq e']
    simp only [Cpu.exec, Bool.false_eq_true, if_false, Out.next.injEq] at hx
    subst hx
    refine Rel.mk' (F := F) ?_ (by rw [hf]; exact hF)
    rw [g8 rfl]
    congr 1
  split at hd
  · rename_i h0 h1 h2 h3 h4 h5 h7 h8 h
    have h6 : ¬ (0x70 ≤ op.toNat ∧ op.toNat < 0x80) := by omega
    simp only [h0, h1, h2, h3, h6, h7, h8, h, and_self, if_true, if_false]
    obtain ⟨hr, hd⟩ := repPlain_some hd
    obtain ⟨hsg, hd⟩ := noSeg_some hd
    subst hr hsg
    rw [wp_bind]
    refine imm16_step (F := F) hs hk ha
      (f := fun x => .movImm true (.reg (field op 0)) x) hd _ ?_
    intro x hi hab hk2
    subst hi
    rw [← hab] at hx
    simp only [Cpu.exec, if_true, Out.next.injEq] at hx
    subst hx
    refine wp_mono (putReg_rel (F := F) (by exact hF) _ _) ?_
    intro _ s' h
    rw [t16_zext] at h
    exact h
  · omega

theorem execHigh_wp (H : Host σ) (hs : Safe s) (hF : FlagsOk F s.flags) (hk : k + rest.length = 8)
    (ha : Ahead s rest (s.ip + BitVec.ofNat 32 k)) {n : Nat}
    (hd : decodeHigh sg rep n rest = some (i, rest')) (hal : Allowed s i)
    (hx : Cpu.exec .sim i (cpuAt s F rest') = .next c') :
    wp (execHigh H (repByte rep) n) (dec s k none 0 (sg.map srIdx) sg.isNone) fun _ s' => Rel s' c' := by
  have seti : ∀ (b : Bool) (x : M σ Unit) Q, wp x (dec s k none 0 (sg.map srIdx) b) Q →
      wp (do setDsize b; x) (dec s k none 0 (sg.map srIdx) sg.isNone) Q := by
    intro b x Q h
    rw [wp_bind, wp_setDsize]
    exact h
  have pl := @plain_step σ s F k rest hk hs hF
  have pl0 : ∀ sg' dz, abs (dec s k none 0 sg' dz) F = cpuAt s F rest := fun _ _ => abs_dec_cpuAt hk
  unfold decodeHigh at hd
  extract_lets w at hd
  split at hd
  · exact seti false _ _ (aluImm_wp hs hF hk ha false (repPlain_some hd).2 hx)
  · exact seti false _ _ (aluImm_wp hs hF hk ha false (repPlain_some hd).2 hx)
  · exact seti true _ _ (aluImm_wp hs hF hk ha false (repPlain_some hd).2 hx)
  · exact seti true _ _ (aluImm_wp hs hF hk ha true (repPlain_some hd).2 hx)
  · exact seti false _ _ (MOV_wp hs hF hk ha false (repPlain_some hd).2 hx)
  · exact seti true _ _ (MOV_wp hs hF hk ha false (repPlain_some hd).2 hx)
  · exact seti false _ _ (MOV_wp hs hF hk ha true (repPlain_some hd).2 hx)
  · exact seti true _ _ (MOV_wp hs hF hk ha true (repPlain_some hd).2 hx)
  · exact op8c_wp hs hF hk ha (repPlain_some hd).2 hal hx
  · exact op8d_wp hs hF hk ha (noSeg_some (repPlain_some hd).2).2 hx
  · exact op8e_wp hs hF hk ha (repPlain_some hd).2 hal hx
  · cases (noSeg_some (repPlain_some hd).2).2
    rw [← pl0 (sg.map srIdx) sg.isNone] at hx
    exact cbw_wp (by exact hF) hx
  · cases (noSeg_some (repPlain_some hd).2).2
    rw [← pl0 (sg.map srIdx) sg.isNone] at hx
    exact cwd_wp (by exact hF) hx
  · exact opA0_wp hs hF hk ha false false (repPlain_some hd).2 hal hx
  · exact opA0_wp hs hF hk ha false true (repPlain_some hd).2 hal hx
  · exact opA0_wp hs hF hk ha true false (repPlain_some hd).2 hal hx
  · exact opA0_wp hs hF hk ha true true (repPlain_some hd).2 hal hx
  · obtain ⟨rfl, hd⟩ := repIs_some hd
    cases (noSeg_some hd).2
    rw [← pl0 (sg.map srIdx) sg.isNone] at hx
    change wp (do assertM _; repMovs false loopFuel) _ _
    rw [wp_bind, wp_assertM _ (by rfl)]
    exact repMovs_rel (Safe.dec hs (by omega) _ _ _ _) (by exact hF) false hal hx
  · obtain ⟨rfl, hd⟩ := repIs_some hd
    cases (noSeg_some hd).2
    rw [← pl0 (sg.map srIdx) sg.isNone] at hx
    change wp (do assertM _; repMovs true loopFuel) _ _
    rw [wp_bind, wp_assertM _ (by rfl)]
    exact repMovs_rel (Safe.dec hs (by omega) _ _ _ _) (by exact hF) true hal hx
  · obtain ⟨rfl, hd⟩ := repIs_some hd
    obtain ⟨rfl, hd⟩ := noSeg_some hd
    cases hd
    rw [← pl0 none true] at hx
    change wp (do assertM _; modS fun s => { s with flags := FZ }; repCmps loopFuel) _ _
    rw [wp_bind, wp_assertM _ (by rfl)]
    exact repCmps_rel (Safe.dec hs (by omega) _ _ _ _) rfl hal hx
  · obtain ⟨rfl, hd⟩ := noSeg_some hd
    refine stos_rel (F := F) (Safe.dec hs (by omega) _ _ _ _) (by exact hF) false (repByte rep) ?_ ?_
    · rcases rep with _ | _ | _
      · intro h; exact absurd h (by decide)
      · intro h; exact absurd h (by decide)
      · intro _; cases hd; exact hal
    · rw [pl0]
      rcases rep with _ | _ | _
      · cases hd; exact hx
      · cases hd
      · cases hd; exact hx
  · obtain ⟨rfl, hd⟩ := noSeg_some hd
    refine stos_rel (F := F) (Safe.dec hs (by omega) _ _ _ _) (by exact hF) true (repByte rep) ?_ ?_
    · rcases rep with _ | _ | _
      · intro h; exact absurd h (by decide)
      · intro h; exact absurd h (by decide)
      · intro _; cases hd; exact hal
    · rw [pl0]
      rcases rep with _ | _ | _
      · cases hd; exact hx
      · cases hd
      · cases hd; exact hx
  · obtain ⟨rfl, hd⟩ := repPlain_some hd
    obtain ⟨rfl, hd⟩ := noSeg_some hd
    cases hd
    rw [← pl0 none false] at hx
    change wp (do
      assertM _
      setDsize false
      WriteReg AX (← Read8 DS (← getReg SI))
      bump SI 1) _ _
    rw [wp_bind, wp_assertM _ (by rfl), wp_bind, wp_setDsize]
    exact lodsb_wp (d := dec s k none 0 none false) (Safe.dec hs (by omega) _ _ _ _) (by exact hF) rfl hx
  · obtain ⟨rfl, hd⟩ := repPlain_some hd
    obtain ⟨rfl, hd⟩ := noSeg_some hd
    cases hd
    rw [← pl0 none true] at hx
    change wp (do
      assertM _
      WriteReg AX (← Read16 DS (← getReg SI))
      bump SI 2) _ _
    rw [wp_bind, wp_assertM _ (by rfl)]
    exact lodsw_wp (d := dec s k none 0 none true) (Safe.dec hs (by omega) _ _ _ _) (by exact hF) rfl hx
  · obtain ⟨rfl, hd⟩ := repIs_some hd
    obtain ⟨rfl, hd⟩ := noSeg_some hd
    cases hd
    rw [← pl0 none true] at hx
    change wp (do assertM _; modS fun s => { s with flags := 0 }; repScas loopFuel) _ _
    rw [wp_bind, wp_assertM _ (by rfl)]
    exact repScas_rel (Safe.dec hs (by omega) _ _ _ _) rfl hal hx
  · cases (noSeg_some (repPlain_some hd).2).2
    rw [← pl0 (sg.map srIdx) sg.isNone] at hx
    exact ret_wp (Safe.dec hs (by omega) _ _ _ _) (by exact hF) hx
  · exact seti false _ _ (opc6_wp hs hF hk ha (repPlain_some hd).2 hx)
  · exact opc7_wp hs hF hk ha (repPlain_some hd).2 hal hx
  · have hd := (noSeg_some (repPlain_some hd).2).2
    split at hd
    · cases hd; cases hx
    · cases hd
  · exact shift1_wp hs hk ha (repPlain_some hd).2 hal hx
  · exact shiftCl_wp hs hk ha (repPlain_some hd).2 hal hx
  · have hd := (noSeg_some (repPlain_some hd).2).2
    change wp (do let rel ← Imm16; DoPush (← getS).ip; addIp rel) _ _
    rw [wp_bind]
    refine imm16_step (F := F) (f := .call) hs hk ha hd _ ?_
    intro x hi hab hk2
    subst hi
    rw [← hab] at hx
    have := word_bound x
    exact call_wp (Safe.dec hs hk2 _ _ _ _) (by exact hF) _ (by omega) (by rw [t16_zext]; exact hx)
  · have hd := (noSeg_some (repPlain_some hd).2).2
    change wp (do addIp (← Imm16)) _ _
    rw [wp_bind]
    refine imm16_step (F := F) (f := .jmp) hs hk ha hd _ ?_
    intro x hi hab hk2
    subst hi
    rw [← hab] at hx
    have := word_bound x
    cases hx
    have := addIp_rel (F := F) (Safe.dec hs hk2 none 0 (sg.map srIdx) sg.isNone) (by exact hF) (x.setWidth 32) (by omega)
    rw [t16_zext] at this
    exact this
  · have hd := (noSeg_some (repPlain_some hd).2).2
    change wp (do addIp (schar (← ReadIByte))) _ _
    rw [wp_bind]
    refine imm8_step (F := F) (f := fun b => .jmp (b.signExtend 16)) hs hk ha hd _ ?_
    intro x hi hab hk2
    subst hi
    rw [← hab] at hx
    cases hx
    have := addIp_rel (F := F) (Safe.dec hs hk2 none 0 (sg.map srIdx) sg.isNone) (by exact hF) (schar (x.setWidth 32)) (schar_bound _)
    rw [t16_schar] at this
    exact this
  · exact group3_wp hs hF hk ha (repPlain_some hd).2 hal hx
  · exact seti false _ _ (groupFE_wp hs hF hk ha (repPlain_some hd).2 hx)
  · exact groupFF_wp hs hF hk ha (repPlain_some hd).2 hal hx
  · cases hd

theorem execInst_wp (H : Host σ) (hs : Safe s) (hF : FlagsOk F s.flags) (hk : k + rest.length = 8)
    (ha : Ahead s rest (s.ip + BitVec.ofNat 32 k))
    (hd : decodeOp sg rep op rest = some (i, rest')) (hal : Allowed s i)
    (hx : Cpu.exec .sim i (cpuAt s F rest') = .next c') :
    wp (execInst H (repByte rep) op) (dec s k none 0 (sg.map srIdx) sg.isNone) fun _ s' => Rel s' c' := by
  by_cases h1 : op.toNat < 0x40
  · exact execLow_wp H hs hF hk ha h1 hd hx
  by_cases h2 : op.toNat < 0x80 ∨ 0x90 ≤ op.toNat ∧ op.toNat < 0x98 ∨ 0xb0 ≤ op.toNat ∧ op.toNat < 0xc0
  · exact execMid_wp H hs hF hk ha (by omega) h2 hd hx
  have e1 : decodeOp sg rep op rest = decodeHigh sg rep op.toNat rest := by
    unfold decodeOp
    extract_lets n w
    rw [if_neg (by omega), if_neg (by omega), if_neg (by omega), if_neg (by omega), if_neg (by omega), if_neg (by omega), if_neg (by omega),
      if_neg (by omega), if_neg (by omega), if_neg (by omega)]
  have e2 : execInst H (repByte rep) op = execHigh H (repByte rep) op.toNat := by
    unfold execInst
    extract_lets n w
    rw [if_neg (by omega), if_neg (by omega), if_neg (by omega), if_neg (by omega), if_neg (by omega), if_neg (by omega), if_neg (by omega),
      if_neg (by omega), if_neg (by omega)]
  rw [e1] at hd
  rw [e2]
  exact execHigh_wp H hs hF hk ha hd hal hx
end
end Sim86
