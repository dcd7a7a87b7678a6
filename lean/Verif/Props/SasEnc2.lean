import Verif.Props.SasEncode
/-!
# C22: the other instructions of the assembler

TEST, XCHG and PUSH with memory, byte shifts, byte MUL/DIV/NOT/NEG, the flag instructions, MOVSB, CMPSB and REP.  The processor of
`I86.Spec` does not have them (no program of the repository but hand-written assembly uses them), so there is a decoder of their own here.
-/
namespace Props.SasEnc2
open Sas I86 Text Prog Props.SasIds Props.SasTotal Props.SasText Props.SasExpr Props.SasAsm Props.SasEnc

/-! ## Specification: the decoder, from the opcode map of the processor -/

/-- The reg field and the operand of a ModRM byte, and what follows. -/
def modRM (seg : Option SReg) : List Byte → Option (Fin 8 × RM × List Byte)
  | [] => none
  | b :: rest =>
    match decodeRM seg b rest with
    | some (rm, rest) => if segOk seg rm then some (field b 3, rm, rest) else none
    | none => none

/-- An immediate operand. -/
def imm (w : Bool) : List Byte → Option (Opd × List Byte)
  | l :: h :: rest => if w then some (.imm (word l h), rest) else some (.imm (l.signExtend 16), h :: rest)
  | [b] => if w then none else some (.imm (b.signExtend 16), [])
  | [] => none

/-- Group 2 (D0 to D3). -/
def shiftOf : Nat → Option ShiftOp
  | 4 => some .shl
  | 5 => some .shr
  | 7 => some .sar
  | _ => none

/-- Group 3 (F6 and F7), without TEST. -/
def unOf : Nat → Option Un
  | 2 => some .not
  | 3 => some .neg
  | 4 => some .mul
  | 5 => some .imul
  | 6 => some .div
  | 7 => some .idiv
  | _ => none

/-- Instructions without operands that do not refer to memory. -/
def flagOf : Nat → Option String
  | 0xf8 => some "CLC"
  | 0xf9 => some "STC"
  | 0xfa => some "CLI"
  | 0xfb => some "STI"
  | _ => none

/-- String instructions. -/
def stringOf : Nat → Option (String × Bool)
  | 0xa4 => some ("MOVSB", false)
  | 0xa6 => some ("CMPSB", false)
  | 0xaa => some ("STOSB", false)
  | 0xab => some ("STOSW", true)
  | 0xac => some ("LODSB", false)
  | _ => none

/-- The instructions with a ModRM byte. -/
def decodeRM2 (seg : Option SReg) (op : Byte) (rest : List Byte) : Option (Asm × List Byte) :=
  let w := op.toNat % 2 == 1
  match modRM seg rest with
  | none => none
  | some (r, rm, rest) =>
    if op.toNat / 2 = 0x43 then some (⟨"XCHG", w, [.reg w r, rmOpd w rm]⟩, rest)
    else if op.toNat / 4 = 0x34 then
      (shiftOf r.val).map fun o => (⟨shiftName o, w, [rmOpd w rm, if op.toNat / 2 % 2 = 1 then .reg false 1 else .imm 1]⟩, rest)
    else if op.toNat / 2 = 0x7b then
      if r.val = 0 then (imm w rest).map fun p => (⟨"TEST", w, [rmOpd w rm, p.1]⟩, p.2)
      else (unOf r.val).map fun u => (⟨unName u, w, [rmOpd w rm]⟩, rest)
    else if op.toNat = 0xff ∧ r.val = 6 then some (⟨"PUSH", true, [rmOpd true rm]⟩, rest)
    else none

/-- The instructions without prefix. -/
def decodeOp2 (op : Byte) (rest : List Byte) : Option (Asm × List Byte) :=
  match flagOf op.toNat, stringOf op.toNat with
  | some n, _ => some (⟨n, false, []⟩, rest)
  | none, some (n, w) => some (⟨n, w, []⟩, rest)
  | none, none =>
    if op.toNat / 2 = 0x54 then
      (imm (op.toNat % 2 == 1) rest).map fun p => (⟨"TEST", op.toNat % 2 == 1, [.reg (op.toNat % 2 == 1) 0, p.1]⟩, p.2)
    else decodeRM2 none op rest

/-- Decode the first instruction. -/
def decode2 : List Byte → Option (Asm × List Byte)
  | 0xf3 :: op :: rest => (stringOf op.toNat).map fun p => (⟨"REP " ++ p.1, p.2, []⟩, rest)
  | 0x26 :: op :: rest => decodeRM2 (some .es) op rest
  | op :: rest => decodeOp2 op rest
  | [] => none

/-! ## Specification: the statements -/

inductive Stmt2
  | testR (w : Bool) (r : Fin 8) (e : E)
  | testM (w : Bool) (m : MemS) (e : E)
  | xchgM (w : Bool) (r : Fin 8) (m : MemS)
  | pushM (m : MemS)
  | shift1 (op : ShiftOp) (w : Bool) (r : Fin 8) (e : E)
  | shiftCl (op : ShiftOp) (w : Bool) (r : Fin 8)
  | unary (u : Un) (w : Bool) (r : Fin 8)
  | plain (name : String)
  | rep (name : String)

/-- The text of a statement. -/
def Stmt2.lx : Stmt2 → List Lx
  | .testR w r e => kw "TEST" :: R w r :: comma :: e.lx
  | .testM _ m e => kw "TEST" :: (m.lx ++ comma :: e.lx)
  | .xchgM w r m => kw "XCHG" :: R w r :: comma :: m.lx
  | .pushM m => kw "PUSH" :: m.lx
  | .shift1 op w r e => kw (shiftName op) :: R w r :: comma :: e.lx
  | .shiftCl op w r => [kw (shiftName op), R w r, comma, R false 1]
  | .unary u w r => [kw (unName u), R w r]
  | .plain name => [kw name]
  | .rep name => [kw "REP", kw name]

/-- The statement stands for the instruction. -/
inductive Means2 : Stmt2 → Asm → Prop
  | testR {w r e v} : e.WF → e.val = some v → Means2 (.testR w r e) ⟨"TEST", w, [.reg w r, immOf w v]⟩
  | testM {w m b e v} : m.m.OK b → m.sz = some w → e.WF → e.val = some v → Means2 (.testM w m e) ⟨"TEST", w, [m.opd b, immOf w v]⟩
  | xchgM {w r m b} : m.m.OK b → (m.sz = none ∨ m.sz = some w) → Means2 (.xchgM w r m) ⟨"XCHG", w, [.reg w r, m.opd b]⟩
  | pushM {m b} : m.m.OK b → m.sz = some true → Means2 (.pushM m) ⟨"PUSH", true, [m.opd b]⟩
  | shift1 {op w r e} : e.WF → e.val = some 1 → Means2 (.shift1 op w r e) ⟨shiftName op, w, [.reg w r, .imm 1]⟩
  | shiftCl {op w r} : Means2 (.shiftCl op w r) ⟨shiftName op, w, [.reg w r, .reg false 1]⟩
  | unary {u w r} : Means2 (.unary u w r) ⟨unName u, w, [.reg w r]⟩
  | plain {name w} : (name, w) ∈ [("CLC", false), ("STC", false), ("CLI", false), ("STI", false), ("MOVSB", false), ("CMPSB", false),
      ("STOSB", false), ("STOSW", true), ("LODSB", false)] → Means2 (.plain name) ⟨name, w, []⟩
  | rep {name w} : (name, w) ∈ [("MOVSB", false), ("CMPSB", false), ("STOSB", false), ("STOSW", true), ("LODSB", false)] →
      Means2 (.rep name) ⟨"REP " ++ name, w, []⟩

/-- What the main loop of the assembler does for the statement: REP is a statement of its own. -/
def Stmt2.run : Stmt2 → A Unit
  | .rep _ => step >>= fun _ => step
  | _ => step

/-! ## The decoder on ModRM bytes -/

theorem withRM_modRM {seg : Option SReg} {bs : List Byte} {k : Fin 8 → RM → List Byte → Option (Instr × List Byte)} :
    withRM seg bs k = (modRM seg bs).bind fun p => k p.1 p.2.1 p.2.2 := by
  cases bs with
  | nil => rfl
  | cons b rest =>
    unfold withRM modRM
    dsimp only
    cases decodeRM seg b rest with
    | none => rfl
    | some p =>
      dsimp only
      split <;> rfl

/-- What `withRM` reads for every continuation is what `modRM` reads. -/
theorem modRM_of {seg : Option SReg} {bs tail : List Byte} {r : Fin 8} {rm : RM}
    (h : ∀ k : Fin 8 → RM → List Byte → Option (Instr × List Byte), withRM seg bs k = k r rm tail) : modRM seg bs = some (r, rm, tail) := by
  have h1 := h fun r rm t => some (.movRmReg true rm r, t)
  rw [withRM_modRM] at h1
  cases hm : modRM seg bs with
  | none => rw [hm] at h1; cases h1
  | some p =>
    rw [hm] at h1
    obtain ⟨r', rm', t'⟩ := p
    have h2 := Option.some.inj h1
    simp only [Prod.mk.injEq, Instr.movRmReg.injEq, true_and] at h2
    obtain ⟨⟨rfl, rfl⟩, rfl⟩ := h2
    rfl

theorem modRM_reg {r m : Fin 8} {tail : List Byte} : modRM none (mb 3 r m :: tail) = some (r, .reg m, tail) := modRM_of fun _ => withRM_reg

theorem imm_bytes {w : Bool} {v : Int} {tail : List Byte} : imm w (immBytes w v ++ tail) = some (immOf w v, tail) := by
  cases w with
  | true =>
    show some (Opd.imm (word (toByte v) (toByte (v / 256))), tail) = _
    rw [word_toByte]; rfl
  | false => cases tail <;> rfl

/-- Neither a prefix nor an instruction without ModRM byte. -/
def Pl (op : Byte) : Bool := !([0xf3, 0x26].contains op.toNat) && (flagOf op.toNat).isNone && (stringOf op.toNat).isNone && op.toNat / 2 != 0x54

theorem decode2_op {op : Byte} {tail : List Byte} (h : (!([0xf3, 0x26].contains op.toNat)) = true) : decode2 (op :: tail) = decodeOp2 op tail := by
  unfold decode2
  split
  · rename_i heq; cases heq; exact absurd h (by decide)
  · rename_i heq; cases heq; exact absurd h (by decide)
  · rename_i heq; cases heq; rfl
  · rename_i heq; cases heq

theorem decode2_pl {op : Byte} {tail : List Byte} (h : Pl op = true) : decode2 (op :: tail) = decodeRM2 none op tail := by
  simp only [Pl, Bool.and_eq_true, bne_iff_ne, Option.isNone_iff_eq_none] at h
  rw [decode2_op h.1.1.1]
  unfold decodeOp2
  rw [h.1.1.2, h.1.2]
  dsimp only
  rw [if_neg h.2]

theorem decode2_pre {es : Bool} {op : Byte} {tail : List Byte} (h : Pl op = true) : decode2 (pre es ++ op :: tail) = decodeRM2 (segO es) op tail := by
  cases es with
  | false => exact decode2_pl h
  | true => rfl

/-! ## The statements -/

variable {xs ys rest : List Lx} {va : Int} {ov : Nat} {a : Asm}

/-- On the text `xs`, `m` emits an instruction that is decoded to `a`. -/
def Good2 (xs rest : List Lx) (va : Int) (m : A Unit) (a : Asm) : Prop :=
  ∃ bs ov', Em xs va 0 m () bs ov' rest ∧ ∀ tail, decode2 (bs ++ tail) = some (a, tail)

theorem test_r {w : Bool} {r : Fin 8} {e : E} {v : Int} (hw : e.WF) (hv : e.val = some v) (hr : precedence (headTy rest) = 100) :
    Good2 (R w r :: comma :: (e.lx ++ rest)) rest va handleTEST ⟨"TEST", w, [.reg w r, immOf w v]⟩ := by
  by_cases h0 : r = 0
  · subst h0
    refine ⟨(0xA8 ||| bit w) :: immBytes w v, 0, ?_, fun tail => ?_⟩
    · unfold handleTEST
      refine em_2 (p := []) (q := []) em_reg (fun va => em_lit hw hv hr) (fun va => ?_)
      dsimp only
      rw [if_pos (regO_ty _)]
      refine Em.seq (em_assert rfl) ?_
      rw [if_pos (by cases w <;> decide), isW_R]
      exact Em.bind (bs := [_]) em_out em_imm
    · rw [List.cons_append, decode2_op (by cases w <;> decide)]
      unfold decodeOp2
      rw [show flagOf (0xA8 ||| bit w).toNat = none by cases w <;> rfl, show stringOf (0xA8 ||| bit w).toNat = none by cases w <;> rfl]
      dsimp only
      rw [if_pos (by cases w <;> decide), show ((0xA8 ||| bit w : Byte).toNat % 2 == 1) = w by cases w <;> rfl, imm_bytes]
      rfl
  · refine ⟨[0xF6 ||| bit w, mb 3 0 r] ++ immBytes w v, 0, ?_, fun tail => ?_⟩
    · unfold handleTEST
      refine em_2 (p := []) (q := []) em_reg (fun va => em_lit hw hv hr) (fun va => ?_)
      dsimp only
      rw [if_pos (regO_ty _)]
      refine Em.seq (em_assert rfl) ?_
      rw [if_neg (by revert w r; decide), isW_R, regBits_R, show (0xC0 ||| BitVec.ofNat 8 r.val : Byte) = mb 3 0 r by revert r; decide]
      exact Em.bind (bs := [_]) em_out (Em.bind (bs := [_]) em_out em_imm)
    · show decode2 ((0xF6 ||| bit w) :: mb 3 0 r :: (immBytes w v ++ tail)) = _
      rw [decode2_pl (by cases w <;> decide)]
      unfold decodeRM2
      have hm : modRM none (mb 3 0 r :: (immBytes w v ++ tail)) = some (0, .reg r, immBytes w v ++ tail) := modRM_reg (r := 0) (m := r)
      rw [hm]
      dsimp only
      rw [if_neg (by cases w <;> decide), if_neg (by cases w <;> decide), if_pos (by cases w <;> decide), if_pos (show ((0 : Fin 8).val = 0) from rfl),
        show ((0xF6 ||| bit w : Byte).toNat % 2 == 1) = w by cases w <;> rfl, imm_bytes]
      rfl

theorem test_m {w : Bool} {m : MemS} {b : Base} {e : E} {v : Int} (hm : m.m.OK b) (hs : m.sz = some w) (hw : e.WF) (hv : e.val = some v)
    (hr : precedence (headTy rest) = 100) : Good2 (m.lx ++ comma :: (e.lx ++ rest)) rest va handleTEST ⟨"TEST", w, [m.opd b, immOf w v]⟩ := by
  obtain ⟨bs, h1, h2⟩ := em_modrm b (dispOf m.m.items) 0
  have hov := ovOf_some hs
  refine ⟨pre m.m.es ++ ((0xF6 ||| bit w) :: (bs ++ immBytes w v)), if w then 2 else 1, ?_, fun tail => ?_⟩
  · unfold handleTEST
    refine em_2 (q := []) (hov ▸ em_memS hm) (fun va => em_lit hw hv hr) (fun va => ?_)
    dsimp only
    have ht : ¬(finishMem (memO b (dispOf m.m.items))).ty = .reg := by rw [fm_ty]; decide
    rw [if_neg ht]
    refine Em.seq (em_assert (by rw [fm_ty]; rfl)) (Em.seq (em_assert rfl) ?_)
    refine Em.getS (fun s h3 h4 => ?_)
    rw [h4]
    refine Em.seq (em_assert (by cases w <;> rfl)) ?_
    rw [show (0xF6 ||| BitVec.ofNat 8 ((if w = true then 2 else 1) - 1) : Byte) = 0xF6 ||| bit w by cases w <;> rfl,
      show (((if w = true then 2 else 1) - 1 : Nat) != 0) = w by cases w <;> rfl]
    exact Em.bind (bs := [_]) em_out (Em.bind (h1 _ _ _) em_imm)
  · rw [List.append_assoc, List.cons_append, List.append_assoc, decode2_pre (by cases w <;> decide)]
    unfold decodeRM2
    have hm : modRM (segO m.m.es) (bs ++ (immBytes w v ++ tail)) = some (0, .mem (segO m.m.es) b (BitVec.ofInt 16 (dispOf m.m.items)), immBytes w v ++ tail) :=
      modRM_of fun k => h2 _ _ k
    rw [hm]
    dsimp only
    rw [if_neg (by cases w <;> decide), if_neg (by cases w <;> decide), if_pos (by cases w <;> decide), if_pos (show ((0 : Fin 8).val = 0) from rfl),
      show ((0xF6 ||| bit w : Byte).toNat % 2 == 1) = w by cases w <;> rfl, imm_bytes]
    rfl

theorem xchg_m {w : Bool} {r : Fin 8} {m : MemS} {b : Base} (hm : m.m.OK b) :
    Good2 (R w r :: comma :: (m.lx ++ rest)) rest va handleXCHG ⟨"XCHG", w, [.reg w r, m.opd b]⟩ := by
  obtain ⟨bs, h1, h2⟩ := em_modrm b (dispOf m.m.items) r
  refine ⟨pre m.m.es ++ ((0x86 ||| bit w) :: bs), ovOf m 0, ?_, fun tail => ?_⟩
  · unfold handleXCHG
    refine em_2 (p := []) em_reg (fun va => em_memS hm) (fun va => ?_)
    dsimp only
    rw [if_pos (regO_ty _), if_neg (by rw [fm_ty]; decide), isW_R, regBits_R]
    refine Em.seq (em_assert (by rw [fm_ty]; rfl)) ?_
    exact Em.bind (bs := [_]) em_out (h1 _ _ _)
  · rw [List.append_assoc, List.cons_append, decode2_pre (by cases w <;> decide)]
    unfold decodeRM2
    have hm : modRM (segO m.m.es) (bs ++ tail) = some (r, .mem (segO m.m.es) b (BitVec.ofInt 16 (dispOf m.m.items)), tail) := modRM_of fun k => h2 _ _ k
    rw [hm]
    dsimp only
    rw [if_pos (by cases w <;> decide), show ((0x86 ||| bit w : Byte).toNat % 2 == 1) = w by cases w <;> rfl]
    rfl

theorem push_m {m : MemS} {b : Base} (hm : m.m.OK b) (hs : m.sz = some true) : Good2 (m.lx ++ rest) rest va handlePUSH ⟨"PUSH", true, [m.opd b]⟩ := by
  obtain ⟨bs, h1, h2⟩ := em_modrm b (dispOf m.m.items) 6
  have hov := ovOf_some hs
  refine ⟨pre m.m.es ++ (0xFF :: bs), 2, ?_, fun tail => ?_⟩
  · unfold handlePUSH
    refine Em.bind (hov ▸ em_memS hm) ?_
    have ht : ¬(finishMem (memO b (dispOf m.m.items))).ty = .reg := by rw [fm_ty]; decide
    rw [if_neg ht]
    refine Em.getS (fun s h3 h4 => ?_)
    rw [h4]
    refine Em.seq (em_assert (by rw [fm_ty]; rfl)) ?_
    exact Em.bind (bs := [_]) em_out (h1 _ _ _)
  · rw [List.append_assoc, List.cons_append, decode2_pre (by decide)]
    unfold decodeRM2
    have hm : modRM (segO m.m.es) (bs ++ tail) = some (6, .mem (segO m.m.es) b (BitVec.ofInt 16 (dispOf m.m.items)), tail) := modRM_of fun k => h2 _ _ k
    rw [hm]
    rfl

theorem shift_1w {op : ShiftOp} {w : Bool} {r : Fin 8} {e : E} {v : Int} (hw : e.WF) (hv : e.val = some v) (hr : precedence (headTy rest) = 100) :
    Good2 (R w r :: comma :: (e.lx ++ rest)) rest va (handleROT (BitVec.ofNat 8 (sn op).val)) ⟨shiftName op, w, [.reg w r, .imm 1]⟩ := by
  refine ⟨[0xD0 ||| bit w ||| 0, mb 3 (sn op) r], 0, ?_, fun tail => ?_⟩
  · unfold handleROT
    refine em_2 (p := []) (q := []) em_reg (fun va => em_lit hw hv hr) (fun va => ?_)
    dsimp only
    refine Em.seq (em_assert rfl) ?_
    rw [if_neg (by rw [litO_ty]; decide), if_neg (by rw [litO_ty]; decide), isW_R, regBits_R, mb3_d]
    exact Em.bind (bs := [_]) em_out em_out
  · show decode2 ((0xD0 ||| bit w ||| 0) :: mb 3 (sn op) r :: tail) = _
    rw [decode2_pl (by cases w <;> decide)]
    unfold decodeRM2
    rw [modRM_reg]
    cases w <;> cases op <;> rfl

theorem shift_clw {op : ShiftOp} {w : Bool} {r : Fin 8} :
    Good2 (R w r :: comma :: R false 1 :: rest) rest va (handleROT (BitVec.ofNat 8 (sn op).val)) ⟨shiftName op, w, [.reg w r, .reg false 1]⟩ := by
  refine ⟨[0xD0 ||| bit w ||| 2, mb 3 (sn op) r], 0, ?_, fun tail => ?_⟩
  · unfold handleROT
    refine em_2 (p := []) (q := []) em_reg (fun va => em_reg) (fun va => ?_)
    dsimp only
    refine Em.seq (em_assert rfl) ?_
    rw [if_pos (regO_ty _), if_pos (regO_ty _), isW_R, regBits_R, mb3_d]
    exact Em.seq (em_assert (by decide)) (Em.bind (bs := [_]) em_out em_out)
  · show decode2 ((0xD0 ||| bit w ||| 2) :: mb 3 (sn op) r :: tail) = _
    rw [decode2_pl (by cases w <;> decide)]
    unfold decodeRM2
    rw [modRM_reg]
    cases w <;> cases op <;> rfl

theorem unary_w {u : Un} {w : Bool} {r : Fin 8} : Good2 (R w r :: rest) rest va (handleMulDiv (BitVec.ofNat 8 (un u).val)) ⟨unName u, w, [.reg w r]⟩ := by
  refine ⟨[0xF6 ||| bit w, mb 3 (un u) r], 0, ?_, fun tail => ?_⟩
  · unfold handleMulDiv
    refine Em.seq em_reg (Em.seq (em_assert rfl) ?_)
    rw [isW_R, regBits_R, mb3_d]
    exact Em.bind (bs := [_]) em_out em_out
  · show decode2 ((0xF6 ||| bit w) :: mb 3 (un u) r :: tail) = _
    rw [decode2_pl (by cases w <;> decide)]
    unfold decodeRM2
    rw [modRM_reg]
    cases w <;> cases u <;> rfl

/-! ## From a mnemonic to its handler -/

theorem step_em {x : Lx} {k : Nat} {m : A Unit} {bs : List Byte} {ov' : Nat} (hx : x.tok.ty = k) (h1 : tokInst ≤ k) (h2 : k < tokUserId)
    (hm : handleInstruction k = m) (h : Em xs va 0 m () bs ov' rest) : Em (x :: xs) va ov step () bs ov' rest := by
  unfold step
  refine Em.seq em_ty ?_
  have ht : headTy (x :: xs) = k := hx
  rw [ht, if_neg (by omega), if_neg (by unfold tokDirective tokInst at *; omega)]
  refine Em.seq em_getToken (Em.seq em_setOv ?_)
  rw [if_neg (by omega), hm]
  exact h

def Done2 (m : A Unit) (xs rest : List Lx) (va : Int) (a : Asm) : Prop :=
  ∃ bs ov', (∀ ov, Em xs va ov m () bs ov' rest) ∧ ∀ tail, decode2 (bs ++ tail) = some (a, tail)

theorem step_good2 {x : Lx} (k : Nat) {m : A Unit} (hx : x.tok.ty = k) (h1 : tokInst ≤ k) (h2 : k < tokUserId) (hm : handleInstruction k = m)
    (h : Good2 xs rest va m a) : Done2 step (x :: xs) rest va a := by
  obtain ⟨bs, ov', e, hd⟩ := h
  exact ⟨bs, ov', fun ov => step_em hx h1 h2 hm e, hd⟩

theorem plain_good {b : Byte} (hd : ∀ tail, decode2 (b :: tail) = some (a, tail)) : Good2 rest rest va (outputByte b) a := ⟨[b], 0, em_out, hd⟩

theorem rep_good {x : Lx} (k : Nat) {b : Byte} (hx : x.tok.ty = k) (h1 : tokInst ≤ k) (h2 : k < tokUserId) (hm : handleInstruction k = outputByte b)
    (hd : ∀ tail, decode2 (0xF3 :: b :: tail) = some (a, tail)) : Done2 (step >>= fun _ => step) (kw "REP" :: x :: rest) rest va a :=
  ⟨[0xF3, b], 0, fun _ => Em.bind (bs := [0xF3]) (step_em (k := 313) (by decide +kernel) (by decide) (by decide) rfl em_out) (step_em hx h1 h2 hm em_out), hd⟩

theorem step_stmt2 {st : Stmt2} (hm : Means2 st a) (hr : precedence (headTy rest) = 100) : Done2 st.run (st.lx ++ rest) rest va a := by
  cases hm with
  | testR h1 h2 => exact step_good2 324 (by decide +kernel) (by decide) (by decide) rfl (test_r h1 h2 hr)
  | @testM w m b e v h1 h2 h3 h4 =>
    show Done2 _ (kw "TEST" :: ((m.lx ++ comma :: e.lx) ++ rest)) _ _ _
    rw [List.append_assoc]
    exact step_good2 324 (by decide +kernel) (by decide) (by decide) rfl (test_m h1 h2 h3 h4 hr)
  | xchgM h1 _ => exact step_good2 325 (by decide +kernel) (by decide) (by decide) rfl (xchg_m h1)
  | pushM h1 h2 => exact step_good2 312 (by decide +kernel) (by decide) (by decide) rfl (push_m h1 h2)
  | @shift1 op w r e h1 h2 =>
    cases op
    · exact step_good2 317 (by decide +kernel) (by decide) (by decide) rfl (shift_1w (op := .shl) h1 h2 hr)
    · exact step_good2 318 (by decide +kernel) (by decide) (by decide) rfl (shift_1w (op := .shr) h1 h2 hr)
    · exact step_good2 315 (by decide +kernel) (by decide) (by decide) rfl (shift_1w (op := .sar) h1 h2 hr)
  | @shiftCl op w r =>
    cases op
    · exact step_good2 317 (by decide +kernel) (by decide) (by decide) rfl (shift_clw (op := .shl))
    · exact step_good2 318 (by decide +kernel) (by decide) (by decide) rfl (shift_clw (op := .shr))
    · exact step_good2 315 (by decide +kernel) (by decide) (by decide) rfl (shift_clw (op := .sar))
  | @unary u w r =>
    cases u
    · exact step_good2 309 (by decide +kernel) (by decide) (by decide) rfl (unary_w (u := .not))
    · exact step_good2 308 (by decide +kernel) (by decide) (by decide) rfl (unary_w (u := .neg))
    · exact step_good2 307 (by decide +kernel) (by decide) (by decide) rfl (unary_w (u := .mul))
    · exact step_good2 299 (by decide +kernel) (by decide) (by decide) rfl (unary_w (u := .imul))
    · exact step_good2 297 (by decide +kernel) (by decide) (by decide) rfl (unary_w (u := .div))
    · exact step_good2 298 (by decide +kernel) (by decide) (by decide) rfl (unary_w (u := .idiv))
  | @plain name w h =>
    simp only [List.mem_cons, Prod.mk.injEq, List.not_mem_nil, or_false] at h
    rcases h with ⟨rfl, rfl⟩ | ⟨rfl, rfl⟩ | ⟨rfl, rfl⟩ | ⟨rfl, rfl⟩ | ⟨rfl, rfl⟩ | ⟨rfl, rfl⟩ | ⟨rfl, rfl⟩ | ⟨rfl, rfl⟩ | ⟨rfl, rfl⟩
    · exact step_good2 291 (by decide +kernel) (by decide) (by decide) rfl (plain_good fun _ => rfl)
    · exact step_good2 319 (by decide +kernel) (by decide) (by decide) rfl (plain_good fun _ => rfl)
    · exact step_good2 292 (by decide +kernel) (by decide) (by decide) rfl (plain_good fun _ => rfl)
    · exact step_good2 320 (by decide +kernel) (by decide) (by decide) rfl (plain_good fun _ => rfl)
    · exact step_good2 306 (by decide +kernel) (by decide) (by decide) rfl (plain_good fun _ => rfl)
    · exact step_good2 294 (by decide +kernel) (by decide) (by decide) rfl (plain_good fun _ => rfl)
    · exact step_good2 321 (by decide +kernel) (by decide) (by decide) rfl (plain_good fun _ => rfl)
    · exact step_good2 322 (by decide +kernel) (by decide) (by decide) rfl (plain_good fun _ => rfl)
    · exact step_good2 304 (by decide +kernel) (by decide) (by decide) rfl (plain_good fun _ => rfl)
  | @rep name w h =>
    simp only [List.mem_cons, Prod.mk.injEq, List.not_mem_nil, or_false] at h
    rcases h with ⟨rfl, rfl⟩ | ⟨rfl, rfl⟩ | ⟨rfl, rfl⟩ | ⟨rfl, rfl⟩ | ⟨rfl, rfl⟩
    · exact rep_good 306 (by decide +kernel) (by decide) (by decide) rfl fun _ => rfl
    · exact rep_good 294 (by decide +kernel) (by decide) (by decide) rfl fun _ => rfl
    · exact rep_good 321 (by decide +kernel) (by decide) (by decide) rfl fun _ => rfl
    · exact rep_good 322 (by decide +kernel) (by decide) (by decide) rfl fun _ => rfl
    · exact rep_good 304 (by decide +kernel) (by decide) (by decide) rfl fun _ => rfl

end Props.SasEnc2

namespace Props
open Sas I86 Text Prog Props.SasIds Props.SasTotal Props.SasText Props.SasExpr Props.SasAsm Props.SasEnc Props.SasEnc2

/-- C22 for the remaining instructions (partial): TEST, XCHG with memory, PUSH with memory, shifts and MUL/DIV/NOT/NEG of every size, the
flag instructions, the string instructions and REP.  There are bytes `bs` that decode, whatever bytes follow, to the instruction that the
statement stands for; in every state of the assembler in which the rest of the file reads as the statement followed by `rest` (white space
and comments between the lexical elements are arbitrary), with room in the output and no RESB/RESW before, processing the statement
succeeds, appends exactly `bs`, advances the address past them and leaves `rest` to be read.

Missing: operands with labels (see C20), and counts of shifts other than 1 (`C22_shift_count_violated`). -/
theorem C22_others_partial {va : Int} {st : Stmt2} {a : Asm} {rest : List Lx} (hm : Means2 st a) (hr : precedence (headTy rest) = 100) :
    ∃ bs ov, (∀ tail, decode2 (bs ++ tail) = some (a, tail)) ∧
      ∀ s : S, At s.lex (st.lx ++ rest) → s.va = va → s.inBSS = false → s.out.size + bs.length ≤ 20000 → Fits va → Fits (va + bs.length) →
        ∃ l g, st.run s = .ok () { s with lex := l, out := s.out ++ bs.toArray, va := va + bs.length, sizeOv := ov, gRefs := g } ∧ At l rest := by
  obtain ⟨bs, ov', h, hd⟩ := step_stmt2 (va := va) hm hr
  exact ⟨bs, ov', hd, fun s h1 h2 h3 h4 h5 h6 => h s.sizeOv s h1 h2 rfl h3 h4 h5 h6⟩

/-- The theorem applies: `test byte [es:di+3], 1<<4`. -/
example : Means2 (.testM false ⟨some false, ⟨true, [(false, .reg .di), (false, .num 3)]⟩⟩ (.bin .shl (.num 1) (.num 4)))
    ⟨"TEST", false, [.mem (some .es) .di 3, .imm 16]⟩ :=
  .testM (b := .di) (v := 16) ⟨rfl, ⟨_, _, rfl⟩, by intro r; simp, by decide⟩ rfl (by simp [E.WF, E.lvl, BOp.lvl]) (by decide)

/-- The bytes of some of these statements in a whole file. -/
example : asmOk "rep movsb\ntest al,3\nxchg cl,[bx+2]\npush word [si]\nshr dl,1\nneg bh\ncli" [0xF3, 0xA4, 0xA8, 3, 0x86, 0x4F, 2, 0xFF, 0x34, 0xD0, 0xEA, 0xF6, 0xDF, 0xFA] = true := by
  decide +kernel

/-- Not so: XCHG of two registers is accepted only with AX as the first, and then the width of the second is not looked at. -/
theorem C22_xchg_width_violated : asmOk "xchg ax,bl" [0x93] = true ∧ asmOk "xchg ax,bx" [0x93] = true := by
  constructor <;> decide +kernel

end Props
