import Verif.Props.SasEnc
import Verif.Props.SasLabels
/-!
# C22: the statements of the assembler
-/
namespace Props.SasEnc
open Sas I86 Text Prog Props.SasIds Props.SasTotal Props.SasText Props.SasExpr Props.SasAsm

variable {xs ys rest : List Lx} {va : Int} {ov : Nat} {a : Asm}

/-! ## The other instructions -/

section
variable {seg : Option SReg} {tail : List Byte}

theorem d_fe : decodeOp seg none 0xfe tail = withRM seg tail fun r rm rest =>
    match r.val with
    | 0 => some (.incDec false false rm, rest)
    | 1 => some (.incDec true false rm, rest)
    | _ => none := rfl
theorem d_ff : decodeOp seg none 0xff tail = withRM seg tail fun r rm rest =>
    match r.val with
    | 0 => some (.incDec false true rm, rest)
    | 1 => some (.incDec true true rm, rest)
    | 2 => some (.callRm rm, rest)
    | _ => none := rfl
theorem d_d1 : decodeOp seg none 0xd1 tail = withRM seg tail fun r rm rest =>
    match r.val with
    | 4 => some (.shift .shl .one rm, rest)
    | 5 => some (.shift .shr .one rm, rest)
    | 7 => some (.shift .sar .one rm, rest)
    | _ => none := rfl
theorem d_d3 : decodeOp seg none 0xd3 tail = withRM seg tail fun r rm rest =>
    match r.val with
    | 4 => some (.shift .shl .cl rm, rest)
    | 5 => some (.shift .shr .cl rm, rest)
    | 7 => some (.shift .sar .cl rm, rest)
    | _ => none := rfl
theorem d_f7 : decodeOp seg none 0xf7 tail = withRM seg tail fun r rm rest =>
    match r.val with
    | 2 => some (.unary .not rm, rest)
    | 3 => some (.unary .neg rm, rest)
    | 4 => some (.unary .mul rm, rest)
    | 5 => some (.unary .imul rm, rest)
    | 6 => some (.unary .div rm, rest)
    | 7 => some (.unary .idiv rm, rest)
    | _ => none := rfl

end

theorem incdec_r {dec w : Bool} {r : Fin 8} :
    Good (R w r :: rest) rest va (handleIncDec (bit dec)) ⟨if dec then "DEC" else "INC", w, [.reg w r]⟩ := by
  cases w with
  | true =>
    refine ⟨[0x40 ||| bit dec <<< 3 ||| BitVec.ofNat 8 r.val], 0, ?_, fun tail => ⟨.incDec dec true (.reg r), ?_, rfl⟩⟩
    · unfold handleIncDec
      refine Em.seq em_reg ?_
      rw [if_pos (regO_ty _), isW_R, if_pos rfl, regBits_R]
      exact em_out
    · cases dec <;> fin_cases r <;> rfl
  | false =>
    refine ⟨[0xFE, mb 3 (if dec then 1 else 0 : Fin 8) r], 0, ?_, fun tail => ⟨.incDec dec false (.reg r), ?_, rfl⟩⟩
    · unfold handleIncDec
      refine Em.seq em_reg ?_
      rw [if_pos (regO_ty _), isW_R, if_neg (by decide), regBits_R]
      rw [show (0xC0 ||| bit dec <<< 3 ||| BitVec.ofNat 8 r.val : Byte) = mb 3 (if dec then 1 else 0 : Fin 8) r by revert dec r; decide]
      exact Em.bind (bs := [_]) em_out em_out
    · show decode (0xFE :: mb 3 (if dec then 1 else 0 : Fin 8) r :: tail) = _
      rw [decode_op (by decide), d_fe, withRM_reg]
      cases dec <;> rfl

theorem incdec_m {dec w : Bool} {m : MemS} {b : Base} (hm : m.m.OK b) (hs : m.sz = some w) :
    Good (m.lx ++ rest) rest va (handleIncDec (bit dec)) ⟨if dec then "DEC" else "INC", w, [m.opd b]⟩ := by
  obtain ⟨bs, h1, h2⟩ := em_modrm b (dispOf m.m.items) (if dec then 1 else 0)
  have hov := ovOf_some hs
  refine ⟨pre m.m.es ++ ((0xFE ||| bit w) :: bs), if w then 2 else 1, ?_, fun tail =>
    ⟨.incDec dec w (.mem (segO m.m.es) b (BitVec.ofInt 16 (dispOf m.m.items))), ?_, rfl⟩⟩
  · unfold handleIncDec
    refine Em.bind (hov ▸ em_memS hm) ?_
    have ht : ¬(finishMem (memO b (dispOf m.m.items))).ty = .reg := by rw [fm_ty]; decide
    rw [if_neg ht]
    refine Em.getS (fun s h3 h4 => ?_)
    have hc : ((finishMem (memO b (dispOf m.m.items))).ty == OpT.mem && s.sizeOv != 0) = true := by rw [fm_ty, h4]; cases w <;> rfl
    refine Em.seq (em_assert hc) ?_
    rw [show (0xFE ||| BitVec.ofNat 8 (s.sizeOv - 1) : Byte) = 0xFE ||| bit w by rw [h4]; cases w <;> rfl]
    refine Em.bind (bs := [_]) em_out ?_
    rw [show bit dec = BitVec.ofNat 8 (if dec then 1 else 0 : Fin 8).val by cases dec <;> rfl]
    exact h1 _ _ _
  · rw [List.append_assoc, List.cons_append, decode_pre (by cases w <;> decide)]
    cases w with
    | false =>
      rw [show (0xFE ||| bit false : Byte) = 0xfe from rfl, d_fe, h2]; cases dec <;> rfl
    | true =>
      rw [show (0xFE ||| bit true : Byte) = 0xff from rfl, d_ff, h2]; cases dec <;> rfl

theorem push_r {r : Fin 8} : Good (R true r :: rest) rest va handlePUSH ⟨"PUSH", true, [.reg true r]⟩ := by
  refine ⟨[0x50 ||| BitVec.ofNat 8 r.val], 0, ?_, fun tail => ⟨.push r, ?_, rfl⟩⟩
  · unfold handlePUSH
    refine Em.seq em_reg ?_
    rw [if_pos (regO_ty _), isSeg_R, if_neg (by decide), isW_R]
    refine Em.seq (em_assert rfl) ?_
    rw [show toByte ((regO (tokR true r)).disp - tokAx) = BitVec.ofNat 8 r.val by revert r; decide]
    exact em_out
  · fin_cases r <;> rfl

theorem pop_r {r : Fin 8} : Good (R true r :: rest) rest va handlePOP ⟨"POP", true, [.reg true r]⟩ := by
  refine ⟨[0x58 ||| BitVec.ofNat 8 r.val], 0, ?_, fun tail => ⟨.pop r, ?_, rfl⟩⟩
  · unfold handlePOP
    refine Em.seq em_reg (Em.seq (em_assert rfl) ?_)
    rw [isSeg_R, if_neg (by decide), isW_R]
    refine Em.seq (em_assert rfl) ?_
    rw [show toByte ((regO (tokR true r)).disp - tokAx) = BitVec.ofNat 8 r.val by revert r; decide]
    exact em_out
  · fin_cases r <;> rfl

theorem push_s {s : SReg} : Good (kw (segName s) :: rest) rest va handlePUSH ⟨"PUSH", true, [.seg s]⟩ := by
  refine ⟨[0x06 ||| BitVec.ofNat 8 (sc s).val <<< 3], 0, ?_, fun tail => ⟨.pushSeg s, ?_, rfl⟩⟩
  · unfold handlePUSH
    refine Em.seq em_seg ?_
    rw [if_pos (regO_ty _), isSeg_S, if_pos rfl]
    rw [show toByte ((regO (tokS s)).disp - tokEs) = BitVec.ofNat 8 (sc s).val by cases s <;> decide]
    exact em_out
  · cases s <;> rfl

theorem pop_s {s : SReg} (hs : s ≠ .cs) : Good (kw (segName s) :: rest) rest va handlePOP ⟨"POP", true, [.seg s]⟩ := by
  refine ⟨[0x07 ||| BitVec.ofNat 8 (sc s).val <<< 3], 0, ?_, fun tail => ⟨.popSeg s, ?_, rfl⟩⟩
  · unfold handlePOP
    refine Em.seq em_seg (Em.seq (em_assert rfl) ?_)
    rw [isSeg_S, if_pos rfl]
    rw [show toByte ((regO (tokS s)).disp - tokEs) = BitVec.ofNat 8 (sc s).val by cases s <;> decide]
    exact em_out
  · cases s
    · rfl
    · exact absurd rfl hs
    · rfl
    · rfl

theorem xchg_r {r : Fin 8} : Good (R true 0 :: comma :: R true r :: rest) rest va handleXCHG ⟨"XCHG", true, [.reg true 0, .reg true r]⟩ := by
  refine ⟨[0x90 ||| BitVec.ofNat 8 r.val], 0, ?_, fun tail => ⟨.xchgAx r, ?_, rfl⟩⟩
  · unfold handleXCHG
    refine em_2 (p := []) (q := []) em_reg (fun va => em_reg) (fun va => ?_)
    dsimp only
    rw [if_pos (regO_ty _), if_pos (regO_ty _), regBits_R]
    exact Em.seq (em_assert (by decide)) em_out
  · fin_cases r <;> rfl

def sn : ShiftOp → Fin 8
  | .shl => 4 | .shr => 5 | .sar => 7

theorem mb3_d (r d : Fin 8) : (0xC0 ||| BitVec.ofNat 8 r.val <<< 3 ||| BitVec.ofNat 8 d.val : Byte) = mb 3 r d := mb3_b d r

theorem shift_1 {op : ShiftOp} {r : Fin 8} {e : E} {v : Int} (hw : e.WF) (hv : e.val = some v) (hr : precedence (headTy rest) = 100) :
    Good (R true r :: comma :: (e.lx ++ rest)) rest va (handleROT (BitVec.ofNat 8 (sn op).val)) ⟨shiftName op, true, [.reg true r, .imm 1]⟩ := by
  refine ⟨[0xD1, mb 3 (sn op) r], 0, ?_, fun tail => ⟨.shift op .one (.reg r), ?_, rfl⟩⟩
  · unfold handleROT
    refine em_2 (p := []) (q := []) em_reg (fun va => em_lit hw hv hr) (fun va => ?_)
    dsimp only
    refine Em.seq (em_assert rfl) ?_
    rw [if_neg (by rw [litO_ty]; decide), if_neg (by rw [litO_ty]; decide), isW_R, regBits_R, mb3_d]
    exact Em.bind (bs := [_]) em_out em_out
  · show decode (0xD1 :: mb 3 (sn op) r :: tail) = _
    rw [decode_op (by decide), d_d1, withRM_reg]; cases op <;> rfl

theorem shift_cl {op : ShiftOp} {r : Fin 8} :
    Good (R true r :: comma :: R false 1 :: rest) rest va (handleROT (BitVec.ofNat 8 (sn op).val)) ⟨shiftName op, true, [.reg true r, .reg false 1]⟩ := by
  refine ⟨[0xD3, mb 3 (sn op) r], 0, ?_, fun tail => ⟨.shift op .cl (.reg r), ?_, rfl⟩⟩
  · unfold handleROT
    refine em_2 (p := []) (q := []) em_reg (fun va => em_reg) (fun va => ?_)
    dsimp only
    refine Em.seq (em_assert rfl) ?_
    rw [if_pos (regO_ty _), if_pos (regO_ty _), isW_R, regBits_R, mb3_d]
    exact Em.seq (em_assert (by decide)) (Em.bind (bs := [_]) em_out em_out)
  · show decode (0xD3 :: mb 3 (sn op) r :: tail) = _
    rw [decode_op (by decide), d_d3, withRM_reg]; cases op <;> rfl

def un : Un → Fin 8
  | .not => 2 | .neg => 3 | .mul => 4 | .imul => 5 | .div => 6 | .idiv => 7

theorem unary_r {u : Un} {r : Fin 8} : Good (R true r :: rest) rest va (handleMulDiv (BitVec.ofNat 8 (un u).val)) ⟨unName u, true, [.reg true r]⟩ := by
  refine ⟨[0xF7, mb 3 (un u) r], 0, ?_, fun tail => ⟨.unary u (.reg r), ?_, rfl⟩⟩
  · unfold handleMulDiv
    refine Em.seq em_reg (Em.seq (em_assert rfl) ?_)
    rw [isW_R, regBits_R, mb3_d]
    exact Em.bind (bs := [_]) em_out em_out
  · show decode (0xF7 :: mb 3 (un u) r :: tail) = _
    rw [decode_op (by decide), d_f7, withRM_reg]; cases u <;> rfl

theorem lea_rm {r : Fin 8} {m : MemS} {b : Base} (hm : m.m.OK b) (hes : m.m.es = false) :
    Good (R true r :: comma :: (m.lx ++ rest)) rest va handleLEA ⟨"LEA", true, [.reg true r, m.opd b]⟩ := by
  obtain ⟨bs, h1, h2⟩ := em_MR (inst := 0x8D) (b := b) (d := dispOf m.m.items) (regBits_R true r)
  refine ⟨0x8D :: bs, ovOf m 0, ?_, fun tail =>
    ⟨.lea r b (BitVec.ofInt 16 (dispOf m.m.items)), ?_, ?_⟩⟩
  · unfold handleLEA
    have hm' := fun va => em_memS (xs := rest) (va := va) (ov := 0) hm
    rw [hes] at hm'
    refine em_2 (p := []) (q := []) em_reg hm' (fun va => ?_)
    dsimp only
    refine Em.seq (em_assert rfl) (Em.seq (em_assert (by rw [fm_ty]; rfl)) ?_)
    have := h1 rest va (ovOf m 0)
    rw [isW_R, isSeg_R] at this
    exact this
  · rw [List.cons_append, decode_op (by decide), d_lea, h2]
  · show Asm.mk _ _ [_, _] = _
    rw [MemS.opd, hes]; rfl

theorem int_n {e : E} {v : Int} (hw : e.WF) (hv : e.val = some v) (hr : precedence (headTy rest) = 100) (h0 : 0 ≤ v) (h1 : v < 256) :
    Good (e.lx ++ rest) rest va handleINT ⟨"INT", false, [.imm (BitVec.ofInt 16 v)]⟩ := by
  refine ⟨[0xCD, toByte v], 0, ?_, fun tail => ⟨.int (toByte v), rfl, ?_⟩⟩
  · unfold handleINT
    refine Em.seq (em_num hw hv hr) (Em.seq (em_assert (by simp [h0, h1])) ?_)
    exact Em.bind (bs := [_]) em_out em_out
  · show Asm.mk _ _ [.imm ((toByte v).zeroExtend 16)] = _
    congr 3
    apply BitVec.eq_of_toNat_eq
    simp only [toByte, BitVec.truncate_eq_setWidth, BitVec.toNat_setWidth, BitVec.toNat_ofInt]
    omega

/-! ### Jumps -/

theorem relDisp_em {v k : Int} (h1 : Fits (va + k)) (h2 : Fits (v - (va + k))) : Em xs va ov (relDisp (litO v) k) (v - (va + k)) [] ov xs := by
  unfold relDisp
  refine Em.getS (fun s h3 _ => ?_)
  rw [h3]
  exact Em.seq (em_ck h1) (em_ck h2)

theorem rel_target {va v : Int} {n : Nat} {k : Int} (hk : (n : Int) = k) : BitVec.ofInt 16 (va + n) + BitVec.ofInt 16 (v - (va + k)) = BitVec.ofInt 16 v := by
  subst hk
  rw [← BitVec.ofInt_add]
  congr 1; omega

theorem call_e {e : E} {v : Int} (hw : e.WF) (hv : e.val = some v) (hr : precedence (headTy rest) = 100) (hn : Near va v) :
    Good (e.lx ++ rest) rest va handleCALL ⟨"CALL", true, [.imm (BitVec.ofInt 16 v)]⟩ := by
  obtain ⟨n1, n2, n3, n4, n5⟩ := hn
  refine ⟨[0xE8, toByte (v - (va + 3)), toByte ((v - (va + 3)) / 256)], 0, ?_, fun tail => ⟨.call (BitVec.ofInt 16 (v - (va + 3))), ?_, ?_⟩⟩
  · unfold handleCALL
    refine Em.seq (em_lit hw hv hr) ?_
    rw [if_neg (by rw [litO_ty]; decide)]
    refine Em.seq (em_assert rfl) (Em.bind (bs := [_]) em_out ?_)
    unfold handleRel16
    rw [fixOp_none rfl]
    refine Em.seq Em.pure (Em.seq em_log (Em.seq (relDisp_em ?_ ?_) ?_))
    · unfold Fits at *; simp only [List.length_singleton]; omega
    · unfold Fits at *; simp only [List.length_singleton]; omega
    · rw [show va + (([0xE8] : List Byte).length : Int) + 2 = va + 3 by simp; omega]
      exact em_word
  · rw [← word_toByte]; rfl
  · show Asm.mk _ _ [.imm (BitVec.ofInt 16 (va + (3 : Nat)) + BitVec.ofInt 16 (v - (va + 3)))] = _
    rw [rel_target (n := 3) (k := 3) rfl]

theorem call_r {r : Fin 8} : Good (R true r :: rest) rest va handleCALL ⟨"CALL", true, [.reg true r]⟩ := by
  refine ⟨[0xFF, mb 3 (2 : Fin 8) r], 0, ?_, fun tail => ⟨.callRm (.reg r), ?_, rfl⟩⟩
  · unfold handleCALL
    refine Em.seq em_reg ?_
    rw [if_pos (regO_ty _), regBits_R, show (0xC0 ||| 0x10 ||| BitVec.ofNat 8 r.val : Byte) = mb 3 (2 : Fin 8) r by revert r; decide]
    exact Em.bind (bs := [_]) em_out em_out
  · show decode (0xFF :: mb 3 (2 : Fin 8) r :: tail) = _
    rw [decode_op (by decide), d_ff, withRM_reg]; rfl

theorem short_of_range {d : Int} (h1 : -128 ≤ d) (h2 : d ≤ 127) : isShort d = true := by
  unfold isShort
  have : (toByte d).toInt = d := by
    unfold toByte
    rw [BitVec.toInt_ofInt]
    exact Int.bmod_eq_of_le (by omega) (by omega)
  simp [this]

theorem jmp_e {short : Bool} {e : E} {v : Int} (hw : e.WF) (hv : e.val = some v) (hr : precedence (headTy rest) = 100) (hn : Near va v)
    (hs : short = true → InRange va v) :
    Good (((if short then [kw "SHORT"] else []) ++ e.lx) ++ rest) rest va handleJMP ⟨"JMP", true, [.imm (BitVec.ofInt 16 v)]⟩ := by
  obtain ⟨n1, n2, n3, n4, n5⟩ := hn
  have f2 : Fits (va + 2) := by unfold Fits at *; omega
  have f3 : Fits (v - (va + 2)) := by unfold Fits at *; omega
  -- the operand
  have parse : ∀ (f : Operand → A Unit) bs, Em rest va (if short then 1 else 0) (f (litO v)) () bs (if short then 1 else 0) rest →
      Em (((if short then [kw "SHORT"] else []) ++ e.lx) ++ rest) va 0 (acceptShort >>= fun _ => parseOperand >>= f) () bs (if short then 1 else 0) rest := by
    intro f bs hf
    cases short with
    | true =>
      refine Em.seq (m := acceptShort) (v := ()) (ov' := 1) (ys := e.lx ++ rest) ?_ (Em.seq (em_lit hw hv hr) hf)
      unfold acceptShort
      refine Em.seq (em_accept_yes (x := kw "SHORT") (by decide +kernel)) ?_
      rw [if_pos rfl]
      exact em_setOv
    | false =>
      refine Em.seq (m := acceptShort) (v := ()) (ov' := 0) (ys := e.lx ++ rest) ?_ (Em.seq (em_lit hw hv hr) hf)
      unfold acceptShort
      refine Em.seq (em_accept_no (t := tokShort) ?_) ?_
      · obtain ⟨x, l, e1, e2⟩ := E_head e
        show headTy (e.lx ++ rest) ≠ _
        rw [e1]
        show x.tok.ty ≠ tokShort
        intro h; rw [h] at e2; revert e2; decide
      · rw [if_neg (by decide)]; exact Em.pure
  by_cases hsh : short = true ∨ isShort (v - (va + 2)) = true
  · have hse : (toByte (v - (va + 2))).signExtend 16 = BitVec.ofInt 16 (v - (va + 2)) := by
      apply short_imm
      rcases hsh with h | h
      · exact short_of_range (hs h).1 (hs h).2
      · exact h
    refine ⟨[0xEB, toByte (v - (va + 2))], if short then 1 else 0, ?_, fun tail => ⟨.jmp (BitVec.ofInt 16 (v - (va + 2))), ?_, ?_⟩⟩
    · unfold handleJMP
      refine parse _ _ ?_
      refine Em.seq (em_assert rfl) (Em.seq (v := true) (ov' := if short then 1 else 0) (ys := rest) ?_ ?_)
      · unfold jmpShort
        refine Em.getS (fun s _ h4 => ?_)
        rw [h4]
        rcases hsh with h | h
        · rw [h]; exact Em.pure
        · cases short with
          | true => exact Em.pure
          | false =>
            rw [if_neg (by decide), if_neg (by decide), if_neg (by exact fun h : (none : Option _) ≠ none => h rfl)]
            refine Em.seq (relDisp_em f2 f3) ?_
            rw [h]; exact Em.pure
      · rw [if_pos rfl]
        refine Em.bind (bs := [_]) em_out ?_
        unfold handleRel8
        rw [fixOp_none rfl]
        refine Em.seq Em.pure (Em.seq em_log (Em.seq (relDisp_em ?_ ?_) ?_))
        · unfold Fits at *; simp only [List.length_singleton]; omega
        · unfold Fits at *; simp only [List.length_singleton]; omega
        · rw [show va + (([0xEB] : List Byte).length : Int) + 1 = va + 2 by simp; omega]
          exact em_out
    · rw [← hse]; rfl
    · show Asm.mk _ _ [.imm (BitVec.ofInt 16 (va + (2 : Nat)) + BitVec.ofInt 16 (v - (va + 2)))] = _
      rw [rel_target (n := 2) (k := 2) rfl]
  · obtain ⟨h1, h2⟩ := not_or.1 hsh
    have h1' : short = false := by simpa using h1
    subst h1'
    refine ⟨[0xE9, toByte (v - (va + 3)), toByte ((v - (va + 3)) / 256)], 0, ?_, fun tail => ⟨.jmp (BitVec.ofInt 16 (v - (va + 3))), ?_, ?_⟩⟩
    · unfold handleJMP
      refine parse _ _ ?_
      refine Em.seq (em_assert rfl) (Em.seq (v := false) (ov' := 0) (ys := rest) ?_ ?_)
      · unfold jmpShort
        refine Em.getS (fun s _ h4 => ?_)
        rw [h4, if_neg (by decide), if_neg (by decide), if_neg (by exact fun h : (none : Option _) ≠ none => h rfl)]
        refine Em.seq (relDisp_em f2 f3) ?_
        rw [show isShort (v - (va + 2)) = false by simpa using h2]; exact Em.pure
      · rw [if_neg (by decide)]
        refine Em.bind (bs := [_]) em_out ?_
        unfold handleRel16
        rw [fixOp_none rfl]
        refine Em.seq Em.pure (Em.seq em_log (Em.seq (relDisp_em ?_ ?_) ?_))
        · unfold Fits at *; simp only [List.length_singleton]; omega
        · unfold Fits at *; simp only [List.length_singleton]; omega
        · rw [show va + (([0xE9] : List Byte).length : Int) + 2 = va + 3 by simp; omega]
          exact em_word
    · rw [← word_toByte]; rfl
    · show Asm.mk _ _ [.imm (BitVec.ofInt 16 (va + (3 : Nat)) + BitVec.ofInt 16 (v - (va + 3)))] = _
      rw [rel_target (n := 3) (k := 3) rfl]

theorem jcc_e {cc : Fin 16} {e : E} {v : Int} (hw : e.WF) (hv : e.val = some v) (hr : precedence (headTy rest) = 100) (hn : Near va v)
    (hs : InRange va v) : Good (e.lx ++ rest) rest va (handleJCC (BitVec.ofNat 8 cc.val)) ⟨ccName cc, true, [.imm (BitVec.ofInt 16 v)]⟩ := by
  obtain ⟨n1, n2, n3, n4, n5⟩ := hn
  have hse : (toByte (v - (va + 2))).signExtend 16 = BitVec.ofInt 16 (v - (va + 2)) := short_imm (short_of_range hs.1 hs.2)
  refine ⟨[0x70 ||| BitVec.ofNat 8 cc.val, toByte (v - (va + 2))], 0, ?_, fun tail => ⟨.jcc cc (BitVec.ofInt 16 (v - (va + 2))), ?_, ?_⟩⟩
  · unfold handleJCC
    refine Em.seq (m := acceptShort) (v := ()) (ov' := 0) (ys := e.lx ++ rest) ?_ (Em.seq (em_lit hw hv hr) ?_)
    · unfold acceptShort
      refine Em.seq (em_accept_no (t := tokShort) ?_) ?_
      · obtain ⟨x, l, e1, e2⟩ := E_head e
        rw [e1]
        show x.tok.ty ≠ tokShort
        intro h; rw [h] at e2; revert e2; decide
      · rw [if_neg (by decide)]; exact Em.pure
    · refine Em.seq (em_assert rfl) (Em.bind (bs := [_]) em_out ?_)
      show Em _ _ _ (logRef _ _ >>= _) _ _ _ _
      refine Em.seq em_log (Em.seq (relDisp_em ?_ ?_) ?_)
      · unfold Fits at *; simp only [List.length_singleton]; omega
      · unfold Fits at *; simp only [List.length_singleton]; omega
      · rw [show va + (([0x70 ||| BitVec.ofNat 8 cc.val] : List Byte).length : Int) + 1 = va + 2 by simp; omega]
        exact em_out
  · rw [← hse]
    clear hse
    fin_cases cc <;> rfl
  · show Asm.mk _ _ [.imm (BitVec.ofInt 16 (va + (2 : Nat)) + BitVec.ofInt 16 (v - (va + 2)))] = _
    rw [rel_target (n := 2) (k := 2) rfl]

theorem plain_i {name : String} {w : Bool} {b : Byte} {i : Instr} (hd : ∀ tail, decode (b :: tail) = some (i, tail)) (hi : ∀ n, disasm n i = ⟨name, w, []⟩) :
    Good rest rest va (outputByte b) ⟨name, w, []⟩ :=
  ⟨[b], 0, em_out, fun tail => ⟨i, hd tail, hi _⟩⟩

/-! ### From a mnemonic to its handler -/

theorem step_good {x : Lx} {k : Nat} {m : A Unit} (hx : x.tok.ty = k) (h1 : tokInst ≤ k) (h2 : k < tokUserId) (hm : handleInstruction k = m)
    (h : Good xs rest va m a) :
    ∃ bs ov', (∀ ov, Em (x :: xs) va ov step () bs ov' rest) ∧ ∀ tail, ∃ i, decode (bs ++ tail) = some (i, tail) ∧ disasm (BitVec.ofInt 16 (va + bs.length)) i = a := by
  obtain ⟨bs, ov', e, hd⟩ := h
  refine ⟨bs, ov', fun ov => ?_, hd⟩
  unfold step
  refine Em.seq em_ty ?_
  have ht : headTy (x :: xs) = k := hx
  rw [ht, if_neg (by omega), if_neg (by unfold tokDirective tokInst at *; omega)]
  refine Em.seq em_getToken (Em.seq em_setOv ?_)
  rw [if_neg (by omega), hm]
  exact e

def Done (xs rest : List Lx) (va : Int) (a : Asm) : Prop :=
  ∃ bs ov', (∀ ov, Em xs va ov step () bs ov' rest) ∧ ∀ tail, ∃ i, decode (bs ++ tail) = some (i, tail) ∧ disasm (BitVec.ofInt 16 (va + bs.length)) i = a

theorem two_done {m : Two} {m' : A Unit} (hm : ∀ op, m = .alu op → m' = handleALU (ac op)) (hmov : m = .mov → m' = handleMOV) (h : Good xs rest va m' a) :
    Done (kw m.name :: xs) rest va a := by
  cases m with
  | mov =>
    rw [hmov rfl] at h
    exact step_good (k := 305) (by decide +kernel) (by decide) (by decide) rfl h
  | alu op =>
    rw [hm op rfl] at h
    cases op
    · exact step_good (k := 287) (by decide +kernel) (by decide) (by decide) rfl h
    · exact step_good (k := 310) (by decide +kernel) (by decide) (by decide) rfl h
    · exact step_good (k := 286) (by decide +kernel) (by decide) (by decide) rfl h
    · exact step_good (k := 316) (by decide +kernel) (by decide) (by decide) rfl h
    · exact step_good (k := 288) (by decide +kernel) (by decide) (by decide) rfl h
    · exact step_good (k := 323) (by decide +kernel) (by decide) (by decide) rfl h
    · exact step_good (k := 326) (by decide +kernel) (by decide) (by decide) rfl h
    · exact step_good (k := 293) (by decide +kernel) (by decide) (by decide) rfl h

theorem jcc_ty : ∀ p ∈ ccNames, (kw p.1).tok.ty = tokJo + p.2.val := by decide +kernel

theorem jcc_handler : ∀ cc : Fin 16, handleInstruction (tokJo + cc.val) = handleJCC (BitVec.ofNat 8 cc.val) := by
  intro cc; fin_cases cc <;> rfl

theorem plain_done {name : String} {w : Bool}
    (h : (name, w) ∈ [("CBW", true), ("CWD", true), ("STOSB", false), ("STOSW", true), ("LODSB", false), ("RET", true)]) :
    Done (kw name :: rest) rest va ⟨name, w, []⟩ := by
  simp only [List.mem_cons, Prod.mk.injEq, List.not_mem_nil, or_false] at h
  rcases h with ⟨rfl, rfl⟩ | ⟨rfl, rfl⟩ | ⟨rfl, rfl⟩ | ⟨rfl, rfl⟩ | ⟨rfl, rfl⟩ | ⟨rfl, rfl⟩
  · exact step_good (k := 290) (by decide +kernel) (by decide) (by decide) rfl (plain_i (i := .cbw) (fun _ => rfl) (fun _ => rfl))
  · exact step_good (k := 295) (by decide +kernel) (by decide) (by decide) rfl (plain_i (i := .cwd) (fun _ => rfl) (fun _ => rfl))
  · exact step_good (k := 321) (by decide +kernel) (by decide) (by decide) rfl (plain_i (i := .stos false) (fun _ => rfl) (fun _ => rfl))
  · exact step_good (k := 322) (by decide +kernel) (by decide) (by decide) rfl (plain_i (i := .stos true) (fun _ => rfl) (fun _ => rfl))
  · exact step_good (k := 304) (by decide +kernel) (by decide) (by decide) rfl (plain_i (i := .lods false) (fun _ => rfl) (fun _ => rfl))
  · exact step_good (k := 314) (by decide +kernel) (by decide) (by decide) rfl (plain_i (i := .ret) (fun _ => rfl) (fun _ => rfl))

theorem step_stmt {st : Stmt} (hm : Means va st a) (hr : precedence (headTy rest) = 100) : Done (st.lx ++ rest) rest va a := by
  cases hm with
  | @rr m w d s => cases m; exact two_done (fun op h => by cases h; rfl) (by simp) alu_rr; exact two_done (by simp) (fun _ => rfl) mov_rr
  | @ri m w d e v h1 h2 => cases m; exact two_done (fun op h => by cases h; rfl) (by simp) (alu_ri h1 h2 hr); exact two_done (by simp) (fun _ => rfl) (mov_ri h1 h2 hr)
  | @rm m w d s b h1 => cases m; exact two_done (fun op h => by cases h; rfl) (by simp) (alu_rm h1); exact two_done (by simp) (fun _ => rfl) (mov_rm h1)
  | @mr m w d s b h1 =>
    show Done (kw m.name :: ((d.lx ++ [comma, R w s]) ++ rest)) _ _ _
    rw [List.append_assoc]
    cases m; exact two_done (fun op h => by cases h; rfl) (by simp) (alu_mr h1); exact two_done (by simp) (fun _ => rfl) (mov_mr h1)
  | @mi m w d e b v h1 h2 h3 h4 =>
    show Done (kw m.name :: ((d.lx ++ comma :: e.lx) ++ rest)) _ _ _
    rw [List.append_assoc]
    cases m; exact two_done (fun op h => by cases h; rfl) (by simp) (alu_mi h1 h2 h3 h4 hr); exact two_done (by simp) (fun _ => rfl) (mov_mi h1 h2 h3 h4 hr)
  | movSR h => exact two_done (m := .mov) (by simp) (fun _ => rfl) (mov_sr h)
  | movRS => exact two_done (m := .mov) (by simp) (fun _ => rfl) mov_rs
  | movSM h h1 => exact two_done (m := .mov) (by simp) (fun _ => rfl) (mov_sm h h1)
  | @movMS s m b h1 =>
    show Done (kw "MOV" :: ((m.lx ++ [comma, kw (segName s)]) ++ rest)) _ _ _
    rw [List.append_assoc]
    exact two_done (m := .mov) (by simp) (fun _ => rfl) (mov_ms h1)
  | @incDec dec w r =>
    cases dec
    · exact step_good (k := 300) (by decide +kernel) (by decide) (by decide) rfl (incdec_r (dec := false))
    · exact step_good (k := 296) (by decide +kernel) (by decide) (by decide) rfl (incdec_r (dec := true))
  | @incDecM dec w m b h1 h2 =>
    cases dec
    · exact step_good (k := 300) (by decide +kernel) (by decide) (by decide) rfl (incdec_m (dec := false) h1 h2)
    · exact step_good (k := 296) (by decide +kernel) (by decide) (by decide) rfl (incdec_m (dec := true) h1 h2)
  | push => exact step_good (k := 312) (by decide +kernel) (by decide) (by decide) rfl push_r
  | pop => exact step_good (k := 311) (by decide +kernel) (by decide) (by decide) rfl pop_r
  | pushS => exact step_good (k := 312) (by decide +kernel) (by decide) (by decide) rfl push_s
  | popS h => exact step_good (k := 311) (by decide +kernel) (by decide) (by decide) rfl (pop_s h)
  | xchg => exact step_good (k := 325) (by decide +kernel) (by decide) (by decide) rfl xchg_r
  | @shift1 op r e h1 h2 =>
    cases op
    · exact step_good (k := 317) (by decide +kernel) (by decide) (by decide) rfl (shift_1 (op := .shl) h1 h2 hr)
    · exact step_good (k := 318) (by decide +kernel) (by decide) (by decide) rfl (shift_1 (op := .shr) h1 h2 hr)
    · exact step_good (k := 315) (by decide +kernel) (by decide) (by decide) rfl (shift_1 (op := .sar) h1 h2 hr)
  | @shiftCl op r =>
    cases op
    · exact step_good (k := 317) (by decide +kernel) (by decide) (by decide) rfl (shift_cl (op := .shl))
    · exact step_good (k := 318) (by decide +kernel) (by decide) (by decide) rfl (shift_cl (op := .shr))
    · exact step_good (k := 315) (by decide +kernel) (by decide) (by decide) rfl (shift_cl (op := .sar))
  | @unary u r =>
    cases u
    · exact step_good (k := 309) (by decide +kernel) (by decide) (by decide) rfl (unary_r (u := .not))
    · exact step_good (k := 308) (by decide +kernel) (by decide) (by decide) rfl (unary_r (u := .neg))
    · exact step_good (k := 307) (by decide +kernel) (by decide) (by decide) rfl (unary_r (u := .mul))
    · exact step_good (k := 299) (by decide +kernel) (by decide) (by decide) rfl (unary_r (u := .imul))
    · exact step_good (k := 297) (by decide +kernel) (by decide) (by decide) rfl (unary_r (u := .div))
    · exact step_good (k := 298) (by decide +kernel) (by decide) (by decide) rfl (unary_r (u := .idiv))
  | lea h1 h2 => exact step_good (k := 303) (by decide +kernel) (by decide) (by decide) rfl (lea_rm h1 h2)
  | int h1 h2 h3 h4 => exact step_good (k := 301) (by decide +kernel) (by decide) (by decide) rfl (int_n h1 h2 hr h3 h4)
  | call h1 h2 h3 => exact step_good (k := 289) (by decide +kernel) (by decide) (by decide) rfl (call_e h1 h2 hr h3)
  | callR => exact step_good (k := 289) (by decide +kernel) (by decide) (by decide) rfl call_r
  | jmp h1 h2 h3 h4 => exact step_good (k := 302) (by decide +kernel) (by decide) (by decide) rfl (jmp_e h1 h2 hr h3 h4)
  | @jcc name cc e v h h1 h2 h3 h4 =>
    have ht : (kw name).tok.ty = tokJo + cc.val := jcc_ty (name, cc) h
    exact step_good (x := kw name) (k := tokJo + cc.val) ht (by unfold tokInst tokJo; omega) (by unfold tokUserId tokJo; omega) (jcc_handler cc) (jcc_e h1 h2 hr h3 h4)
  | @plain name w h =>
    exact plain_done h

end Props.SasEnc

namespace Props
open Sas I86 Text Prog Props.SasIds Props.SasTotal Props.SasText Props.SasExpr Props.SasAsm Props.SasEnc


/-- C22 (partial).  For a statement of any of the forms of `Stmt`, standing at address `va` for the instruction `a`, there are bytes
`bs` that decode, whatever bytes follow, to an instruction that disassembles to `a`; and in every state of the assembler at address `va`
in which the rest of the file reads as the statement followed by `rest` (white space and comments between the lexical elements are
arbitrary), with room in the output for `bs` and no RESB/RESW before, processing the statement succeeds, appends exactly `bs`, advances
the address past them and leaves `rest` to be read; nothing else changes but the size override and a ghost.

The condition on `rest`: the next word does not continue an expression.  Missing: the instructions that the decoder does not have (they are in
`C22_others_partial`), operands with labels (see C20), and the statements shown wrong below. -/
theorem C22_encoding_partial {va : Int} {st : Stmt} {a : Asm} {rest : List Lx} (hm : Means va st a) (hr : precedence (headTy rest) = 100) :
    ∃ bs ov, (∀ tail, ∃ i, decode (bs ++ tail) = some (i, tail) ∧ disasm (BitVec.ofInt 16 (va + bs.length)) i = a) ∧
      ∀ s : S, At s.lex (st.lx ++ rest) → s.va = va → s.inBSS = false → s.out.size + bs.length ≤ 20000 → Fits va → Fits (va + bs.length) →
        ∃ l g, step s = .ok () { s with lex := l, out := s.out ++ bs.toArray, va := va + bs.length, sizeOv := ov, gRefs := g } ∧ At l rest := by
  obtain ⟨bs, ov', h, hd⟩ := step_stmt hm hr
  exact ⟨bs, ov', hd, fun s h1 h2 h3 h4 h5 h6 => h s.sizeOv s h1 h2 rfl h3 h4 h5 h6⟩

/-- The theorem applies: `sub word [es:si+bx+6-2], 1<<4` is a statement of one of the forms, whatever the address. -/
example (va : Int) : Means va (.mi (.alu .sub) true ⟨some true, ⟨true, [(false, .reg .si), (false, .reg .bx), (false, .num 6), (true, .num 2)]⟩⟩ (.bin .shl (.num 1) (.num 4)))
    ⟨"SUB", true, [.mem (some .es) .bxsi 4, .imm 16]⟩ :=
  .mi (b := .bxsi) (v := 16) ⟨rfl, ⟨_, _, rfl⟩, by intro r; simp, by decide⟩ rfl (by simp [E.WF, E.lvl, BOp.lvl]) (by decide)

/-- A conditional jump backwards by 126 bytes is one of the forms, and it is the farthest. -/
example : Means 0x200 (.jcc "JNZ" (.num 0x182)) ⟨ccName 5, true, [.imm 0x182]⟩ ∧ ¬InRange 0x200 0x181 :=
  ⟨.jcc (name := "JNZ") (cc := 5) (e := .num 0x182) (v := 0x182) (by decide) (by simp [E.WF]) (by decide) (by unfold Near; decide) (by unfold InRange; decide), by unfold InRange; decide⟩

/-- Not so: a count other than 1 in a shift is ignored; `shl ax,2` gives the bytes of `shl ax,1`. -/
theorem C22_shift_count_violated : asmOk "shl ax,2" [0xD1, 0xE0] = true ∧ asmOk "shl ax,1" [0xD1, 0xE0] = true := by
  constructor <;> decide +kernel

/-- Not so: the override for CS comes out as the byte 0x27, which is DAA and no segment prefix. -/
theorem C22_cs_override_violated : asmOk "mov bx,[cs:5]" [0x27, 0x8B, 0x1E, 5, 0] = true ∧ decode [0x27, 0x8B, 0x1E, 5, 0] = none := by
  constructor <;> decide +kernel

/-- Not so: a minus before a register is ignored. -/
theorem C22_minus_register_violated : asmOk "mov cx,[5-bx]" [0x8B, 0x4F, 5] = true ∧ asmOk "mov cx,[bx+5]" [0x8B, 0x4F, 5] = true := by
  constructor <;> decide +kernel

/-- Not so: registers of different widths are accepted, and the width of one of them is taken. -/
theorem C22_width_mismatch_violated : asmOk "mov al,bx" [0x88, 0xD8] = true ∧ asmOk "mov al,bl" [0x88, 0xD8] = true := by
  constructor <;> decide +kernel

/-- Not so: a short jump whose target is out of reach is accepted, and jumps elsewhere (0x100 + 2 - 2 instead of 0x200). -/
theorem C22_short_range_violated : asmOk "org 256\njmp short 512" [0xEB, 0xFE] = true := by decide +kernel

end Props
