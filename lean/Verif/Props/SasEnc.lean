import Verif.Props.SasAsm
import Verif.I86.Spec
import Mathlib.Tactic.FinCases
/-!
# C22: what the assembler emits for a statement decodes to that statement
-/
namespace Props.SasEnc
open Sas I86 Text Prog Props.SasIds Props.SasTotal Props.SasText Props.SasExpr Props.SasAsm

/-! ## Specification: assembly statements, and a disassembler -/

/-- An operand of an instruction. -/
inductive Opd
  | reg (w : Bool) (r : Fin 8)
  | seg (s : SReg)
  | mem (seg : Option SReg) (b : Base) (d : Word)
  | imm (v : Word)
  deriving DecidableEq

/-- An instruction as a mnemonic, the operand size and the operands; jump targets are absolute. -/
structure Asm where
  mn : String
  w : Bool
  ops : List Opd
  deriving DecidableEq

def aluName : AluOp → String
  | .add => "ADD" | .or => "OR" | .adc => "ADC" | .sbb => "SBB" | .and => "AND" | .sub => "SUB" | .xor => "XOR" | .cmp => "CMP"

def shiftName : ShiftOp → String
  | .shl => "SHL" | .shr => "SHR" | .sar => "SAR"

def unName : Un → String
  | .not => "NOT" | .neg => "NEG" | .mul => "MUL" | .imul => "IMUL" | .div => "DIV" | .idiv => "IDIV"

/-- The conditional jumps, one name for each condition. -/
def ccName : Fin 16 → String
  | 0 => "JO" | 1 => "JNO" | 2 => "JC" | 3 => "JNC" | 4 => "JZ" | 5 => "JNZ" | 6 => "JNA" | 7 => "JA"
  | 8 => "JS" | 9 => "JNS" | 10 => "JPE" | 11 => "JPO" | 12 => "JL" | 13 => "JNL" | 14 => "JNG" | _ => "JG"

/-- All names of the conditional jumps. -/
def ccNames : List (String × Fin 16) := [
  ("JO", 0), ("JNO", 1), ("JC", 2), ("JB", 2), ("JNAE", 2), ("JNC", 3), ("JNB", 3), ("JAE", 3), ("JZ", 4), ("JE", 4), ("JNZ", 5),
  ("JNE", 5), ("JNA", 6), ("JBE", 6), ("JA", 7), ("JNBE", 7), ("JS", 8), ("JNS", 9), ("JPE", 10), ("JPO", 11), ("JL", 12),
  ("JNGE", 12), ("JNL", 13), ("JGE", 13), ("JNG", 14), ("JLE", 14), ("JG", 15), ("JNLE", 15)]

def rmOpd (w : Bool) : RM → Opd
  | .reg r => .reg w r
  | .mem s b d => .mem s b d

/-- An immediate of the operand size. -/
def immOpd (w : Bool) (v : Word) : Opd := .imm (if w then v else (v.setWidth 8).signExtend 16)

/-- The disassembler; `next` is the address after the instruction. -/
def disasm (next : Word) : Instr → Asm
  | .aluRmReg op w d s => ⟨aluName op, w, [rmOpd w d, .reg w s]⟩
  | .aluRegRm op w d s => ⟨aluName op, w, [.reg w d, rmOpd w s]⟩
  | .aluImm op w d v => ⟨aluName op, w, [rmOpd w d, immOpd w v]⟩
  | .pushSeg s => ⟨"PUSH", true, [.seg s]⟩
  | .popSeg s => ⟨"POP", true, [.seg s]⟩
  | .incDec dec w rm => ⟨if dec then "DEC" else "INC", w, [rmOpd w rm]⟩
  | .push r => ⟨"PUSH", true, [.reg true r]⟩
  | .pop r => ⟨"POP", true, [.reg true r]⟩
  | .jcc cc rel => ⟨ccName cc, true, [.imm (next + rel)]⟩
  | .xchgAx r => ⟨"XCHG", true, [.reg true 0, .reg true r]⟩
  | .movRmReg w d s => ⟨"MOV", w, [rmOpd w d, .reg w s]⟩
  | .movRegRm w d s => ⟨"MOV", w, [.reg w d, rmOpd w s]⟩
  | .movImm w d v => ⟨"MOV", w, [rmOpd w d, immOpd w v]⟩
  | .movRmSeg d s => ⟨"MOV", true, [rmOpd true d, .seg s]⟩
  | .movSegRm s d => ⟨"MOV", true, [.seg s, rmOpd true d]⟩
  | .lea r b d => ⟨"LEA", true, [.reg true r, .mem none b d]⟩
  | .cbw => ⟨"CBW", true, []⟩
  | .cwd => ⟨"CWD", true, []⟩
  | .movAccMem w s d => ⟨"MOV", w, [.reg w 0, .mem s .none d]⟩
  | .movMemAcc w s d => ⟨"MOV", w, [.mem s .none d, .reg w 0]⟩
  | .repMovs w => ⟨if w then "REP MOVSW" else "REP MOVSB", w, []⟩
  | .repeCmpsb => ⟨"REP CMPSB", false, []⟩
  | .stos w => ⟨if w then "STOSW" else "STOSB", w, []⟩
  | .repStos w => ⟨if w then "REP STOSW" else "REP STOSB", w, []⟩
  | .lods w => ⟨if w then "LODSW" else "LODSB", w, []⟩
  | .repneScasb => ⟨"REPNE SCASB", false, []⟩
  | .ret => ⟨"RET", true, []⟩
  | .int n => ⟨"INT", false, [.imm (n.zeroExtend 16)]⟩
  | .shift op .one d => ⟨shiftName op, true, [rmOpd true d, .imm 1]⟩
  | .shift op .cl d => ⟨shiftName op, true, [rmOpd true d, .reg false 1]⟩
  | .call rel => ⟨"CALL", true, [.imm (next + rel)]⟩
  | .jmp rel => ⟨"JMP", true, [.imm (next + rel)]⟩
  | .unary u d => ⟨unName u, true, [rmOpd true d]⟩
  | .callRm d => ⟨"CALL", true, [rmOpd true d]⟩

/-- A memory operand with an optional BYTE or WORD before it. -/
structure MemS where
  sz : Option Bool
  m : MemT

def MemS.lx (m : MemS) : List Lx :=
  match m.sz with
  | none => m.m.lx
  | some false => kw "BYTE" :: m.m.lx
  | some true => kw "WORD" :: m.m.lx

def segO (es : Bool) : Option SReg := if es then some .es else none

/-- The operand that the text stands for. -/
def MemS.opd (m : MemS) (b : Base) : Opd := .mem (segO m.m.es) b (BitVec.ofInt 16 (dispOf m.m.items))

/-- A two-operand mnemonic. -/
inductive Two | alu (op : AluOp) | mov

def Two.name : Two → String
  | .alu op => aluName op
  | .mov => "MOV"

/-- A statement. -/
inductive Stmt
  | rr (m : Two) (w : Bool) (d s : Fin 8)
  | ri (m : Two) (w : Bool) (d : Fin 8) (e : E)
  | rm (m : Two) (w : Bool) (d : Fin 8) (s : MemS)
  | mr (m : Two) (w : Bool) (d : MemS) (s : Fin 8)
  | mi (m : Two) (w : Bool) (d : MemS) (e : E)
  | movSR (s : SReg) (r : Fin 8)
  | movRS (r : Fin 8) (s : SReg)
  | movSM (s : SReg) (m : MemS)
  | movMS (m : MemS) (s : SReg)
  | incDec (dec w : Bool) (r : Fin 8)
  | incDecM (dec w : Bool) (m : MemS)
  | push (r : Fin 8)
  | pop (r : Fin 8)
  | pushS (s : SReg)
  | popS (s : SReg)
  | xchg (r : Fin 8)
  | shift1 (op : ShiftOp) (r : Fin 8) (e : E)
  | shiftCl (op : ShiftOp) (r : Fin 8)
  | unary (u : Un) (r : Fin 8)
  | lea (r : Fin 8) (m : MemS)
  | int (e : E)
  | call (e : E)
  | callR (r : Fin 8)
  | jmp (short : Bool) (e : E)
  | jcc (name : String) (e : E)
  | plain (name : String)

def comma : Lx := .sym (chr ',')
def R (w : Bool) (r : Fin 8) : Lx := kw (regName w r)

/-- The text of a statement. -/
def Stmt.lx : Stmt → List Lx
  | .rr m w d s => [kw m.name, R w d, comma, R w s]
  | .ri m w d e => kw m.name :: R w d :: comma :: e.lx
  | .rm m w d s => kw m.name :: R w d :: comma :: s.lx
  | .mr m w d s => kw m.name :: (d.lx ++ [comma, R w s])
  | .mi m _ d e => kw m.name :: (d.lx ++ comma :: e.lx)
  | .movSR s r => [kw "MOV", kw (segName s), comma, R true r]
  | .movRS r s => [kw "MOV", R true r, comma, kw (segName s)]
  | .movSM s m => kw "MOV" :: kw (segName s) :: comma :: m.lx
  | .movMS m s => kw "MOV" :: (m.lx ++ [comma, kw (segName s)])
  | .incDec dec w r => [kw (if dec then "DEC" else "INC"), R w r]
  | .incDecM dec _ m => kw (if dec then "DEC" else "INC") :: m.lx
  | .push r => [kw "PUSH", R true r]
  | .pop r => [kw "POP", R true r]
  | .pushS s => [kw "PUSH", kw (segName s)]
  | .popS s => [kw "POP", kw (segName s)]
  | .xchg r => [kw "XCHG", R true 0, comma, R true r]
  | .shift1 op r e => kw (shiftName op) :: R true r :: comma :: e.lx
  | .shiftCl op r => [kw (shiftName op), R true r, comma, R false 1]
  | .unary u r => [kw (unName u), R true r]
  | .lea r m => kw "LEA" :: R true r :: comma :: m.lx
  | .int e => kw "INT" :: e.lx
  | .call e => kw "CALL" :: e.lx
  | .callR r => [kw "CALL", R true r]
  | .jmp short e => kw "JMP" :: ((if short then [kw "SHORT"] else []) ++ e.lx)
  | .jcc name e => kw name :: e.lx
  | .plain name => [kw name]

/-- An immediate operand of value `v`. -/
def immOf (w : Bool) (v : Int) : Opd := .imm (if w then BitVec.ofInt 16 v else (BitVec.ofInt 8 v).signExtend 16)

/-- An address that a jump from `va` can be computed for without overflow. -/
def Near (va n : Int) : Prop := Fits (va + 3) ∧ -1000000000 ≤ va ∧ -1000000000 ≤ n ∧ n ≤ 1000000000 ∧ va ≤ 1000000000

/-- A byte displacement from a two-byte jump at `va` reaches `n`. -/
def InRange (va n : Int) : Prop := -128 ≤ n - (va + 2) ∧ n - (va + 2) ≤ 127

/-- The statement at address `va` stands for the instruction `a`. -/
inductive Means (va : Int) : Stmt → Asm → Prop
  | rr {m w d s} : Means va (.rr m w d s) ⟨m.name, w, [.reg w d, .reg w s]⟩
  | ri {m w d e v} : e.WF → e.val = some v → Means va (.ri m w d e) ⟨m.name, w, [.reg w d, immOf w v]⟩
  | rm {m w d s b} : s.m.OK b → Means va (.rm m w d s) ⟨m.name, w, [.reg w d, s.opd b]⟩
  | mr {m w d s b} : d.m.OK b → Means va (.mr m w d s) ⟨m.name, w, [d.opd b, .reg w s]⟩
  | mi {m w d e b v} : d.m.OK b → d.sz = some w → e.WF → e.val = some v → Means va (.mi m w d e) ⟨m.name, w, [d.opd b, immOf w v]⟩
  | movSR {s r} : s ≠ .cs → Means va (.movSR s r) ⟨"MOV", true, [.seg s, .reg true r]⟩
  | movRS {s r} : Means va (.movRS r s) ⟨"MOV", true, [.reg true r, .seg s]⟩
  | movSM {s m b} : s ≠ .cs → m.m.OK b → Means va (.movSM s m) ⟨"MOV", true, [.seg s, m.opd b]⟩
  | movMS {s m b} : m.m.OK b → Means va (.movMS m s) ⟨"MOV", true, [m.opd b, .seg s]⟩
  | incDec {dec w r} : Means va (.incDec dec w r) ⟨if dec then "DEC" else "INC", w, [.reg w r]⟩
  | incDecM {dec w m b} : m.m.OK b → m.sz = some w → Means va (.incDecM dec w m) ⟨if dec then "DEC" else "INC", w, [m.opd b]⟩
  | push {r} : Means va (.push r) ⟨"PUSH", true, [.reg true r]⟩
  | pop {r} : Means va (.pop r) ⟨"POP", true, [.reg true r]⟩
  | pushS {s} : Means va (.pushS s) ⟨"PUSH", true, [.seg s]⟩
  | popS {s} : s ≠ .cs → Means va (.popS s) ⟨"POP", true, [.seg s]⟩
  | xchg {r} : Means va (.xchg r) ⟨"XCHG", true, [.reg true 0, .reg true r]⟩
  | shift1 {op r e} : e.WF → e.val = some 1 → Means va (.shift1 op r e) ⟨shiftName op, true, [.reg true r, .imm 1]⟩
  | shiftCl {op r} : Means va (.shiftCl op r) ⟨shiftName op, true, [.reg true r, .reg false 1]⟩
  | unary {u r} : Means va (.unary u r) ⟨unName u, true, [.reg true r]⟩
  | lea {r m b} : m.m.OK b → m.m.es = false → Means va (.lea r m) ⟨"LEA", true, [.reg true r, m.opd b]⟩
  | int {e v} : e.WF → e.val = some v → 0 ≤ v → v < 256 → Means va (.int e) ⟨"INT", false, [.imm (BitVec.ofInt 16 v)]⟩
  | call {e v} : e.WF → e.val = some v → Near va v → Means va (.call e) ⟨"CALL", true, [.imm (BitVec.ofInt 16 v)]⟩
  | callR {r} : Means va (.callR r) ⟨"CALL", true, [.reg true r]⟩
  | jmp {short e v} : e.WF → e.val = some v → Near va v → (short = true → InRange va v) →
      Means va (.jmp short e) ⟨"JMP", true, [.imm (BitVec.ofInt 16 v)]⟩
  | jcc {name cc e v} : (name, cc) ∈ ccNames → e.WF → e.val = some v → Near va v → InRange va v →
      Means va (.jcc name e) ⟨ccName cc, true, [.imm (BitVec.ofInt 16 v)]⟩
  | plain {name w} : (name, w) ∈ [("CBW", true), ("CWD", true), ("STOSB", false), ("STOSW", true), ("LODSB", false), ("RET", true)] →
      Means va (.plain name) ⟨name, w, []⟩

/-! ## Operands -/

variable {xs ys rest : List Lx} {va : Int} {ov : Nat}

/-- The token of a register. -/
def tokR (w : Bool) (r : Fin 8) : Nat := (if w then tokAx else tokAl) + r.val
def tokS : SReg → Nat
  | .es => 272 | .cs => 273 | .ss => 274 | .ds => 275

def regO (t : Nat) : Operand := { ty := .reg, disp := t, gAddend := t }
def litO (n : Int) : Operand := { ty := .lit, disp := n, gAddend := n }

theorem R_ty : ∀ w r, (R w r).tok.ty = tokR w r := by decide +kernel
theorem S_ty : ∀ s, (kw (segName s)).tok.ty = tokS s := by intro s; cases s <;> decide +kernel

theorem em_reg_tok {x : Lx} {t : Nat} (h : x.tok.ty = t) (h1 : 256 ≤ t) (h2 : t ≤ 275) :
    Em (x :: xs) va ov parseOperand (regO t) [] ov xs := by
  unfold parseOperand
  refine Em.seq em_tok ?_
  have ht : (headTok (x :: xs)).ty = t := h
  rw [ht]
  rw [if_neg (by simp only [isUnaryOp, Bool.or_eq_true, beq_iff_eq, tokNumber, tokString, tokPlus, tokMinus, tokTilde]; omega), if_neg (by unfold tokLbracket; omega), if_neg (by unfold tokByte tokWord; omega), if_pos (by unfold tokAl tokDs; omega)]
  exact Em.seq em_getToken Em.pure

theorem em_reg {w : Bool} {r : Fin 8} : Em (R w r :: xs) va ov parseOperand (regO (tokR w r)) [] ov xs :=
  em_reg_tok (R_ty w r) (by unfold tokR; split <;> simp [tokAx, tokAl] <;> omega) (by unfold tokR; split <;> simp [tokAx, tokAl] <;> omega)

theorem em_seg {s : SReg} : Em (kw (segName s) :: xs) va ov parseOperand (regO (tokS s)) [] ov xs :=
  em_reg_tok (S_ty s) (by cases s <;> decide) (by cases s <;> decide)

theorem E_head (e : E) : ∃ x l, e.lx = x :: l ∧ (x.tok.ty = tokNumber ∨ x.tok.ty = tokString ∨ isUnaryOp x.tok.ty = true) := by
  induction e with
  | num n => exact ⟨_, _, rfl, Or.inl rfl⟩
  | chars c d => exact ⟨_, _, rfl, Or.inr (Or.inl rfl)⟩
  | un o e ih => exact ⟨_, _, rfl, by cases o <;> decide⟩
  | bin o a b iha ihb =>
    obtain ⟨x, l, h, h'⟩ := iha
    exact ⟨x, l ++ o.lx :: b.lx, by simp [E.lx, h], h'⟩

theorem em_num {e : E} {v : Int} (hw : e.WF) (hv : e.val = some v) (hr : precedence (headTy rest) = 100) :
    Em (e.lx ++ rest) va ov parseNumber v [] ov rest := by
  have := C23_expression hw hr
  rw [hv] at this
  exact Em.of_rd this

theorem em_lit {e : E} {v : Int} (hw : e.WF) (hv : e.val = some v) (hr : precedence (headTy rest) = 100) :
    Em (e.lx ++ rest) va ov parseOperand (litO v) [] ov rest := by
  have h := em_num (va := va) (ov := ov) hw hv hr
  obtain ⟨x, l, e1, e2⟩ := E_head e
  unfold parseOperand
  rw [e1] at h ⊢
  refine Em.seq em_tok ?_
  have ht : (headTok (x :: l ++ rest)).ty = x.tok.ty := rfl
  rw [ht, if_pos e2]
  exact Em.seq h Em.pure

/-- The override after an operand. -/
def ovOf (m : MemS) (ov : Nat) : Nat :=
  match m.sz with
  | none => ov
  | some false => 1
  | some true => 2

theorem em_memS {m : MemS} {b : Base} (hm : m.m.OK b) :
    Em (m.lx ++ xs) va ov parseOperand (finishMem (memO b (dispOf m.m.items))) (pre m.m.es) (ovOf m ov) xs := by
  have h := fun o => em_mem (xs := xs) (va := va) (ov := o) hm
  obtain ⟨t, ht⟩ : ∃ t, m.m.lx = .sym (chr '[') :: t := ⟨_, rfl⟩
  rw [ht] at h
  unfold parseOperand
  obtain ⟨sz, m⟩ := m
  match sz with
  | none =>
    simp only [MemS.lx, ovOf]
    rw [ht]
    refine Em.seq em_tok ?_
    have h1 : (headTok (.sym (chr '[') :: t ++ xs)).ty = tokLbracket := by rfl
    rw [h1, if_neg (by decide), if_pos rfl]
    exact Em.seq em_getToken (h ov)
  | some false =>
    simp only [MemS.lx, ovOf]
    rw [ht]
    refine Em.seq em_tok ?_
    have h1 : (headTok (kw "BYTE" :: .sym (chr '[') :: t ++ xs)).ty = tokByte := by show (kw "BYTE").tok.ty = _; decide +kernel
    rw [h1, if_neg (by decide), if_neg (by decide), if_pos (by decide)]
    exact Em.seq em_setOv (Em.seq em_getToken (Em.seq (em_expect (x := .sym (chr '[')) (by decide)) (h 1)))
  | some true =>
    simp only [MemS.lx, ovOf]
    rw [ht]
    refine Em.seq em_tok ?_
    have h1 : (headTok (kw "WORD" :: .sym (chr '[') :: t ++ xs)).ty = tokWord := by show (kw "WORD").tok.ty = _; decide +kernel
    rw [h1, if_neg (by decide), if_neg (by decide), if_pos (by decide)]
    exact Em.seq em_setOv (Em.seq em_getToken (Em.seq (em_expect (x := .sym (chr '[')) (by decide)) (h 2)))

/-! ## ModRM -/

theorem word_toByte (d : Int) : word (toByte d) (toByte (d / 256)) = BitVec.ofInt 16 d := by
  apply BitVec.eq_of_toNat_eq
  simp only [word, toByte, BitVec.toNat_append, BitVec.toNat_ofInt]
  rw [Nat.shiftLeft_eq, ← Nat.shiftLeft_eq, ← Nat.shiftLeft_add_eq_or_of_lt (by omega), Nat.shiftLeft_eq]
  omega

theorem short_signExtend {d : Int} (h : isShort d = true) : (toByte d).signExtend 16 = BitVec.ofInt 16 d := by
  unfold isShort at h
  have h' : d % 65536 = (toByte d).toInt % 65536 := by simpa using h
  unfold BitVec.signExtend
  apply BitVec.eq_of_toNat_eq
  simp only [BitVec.toNat_ofInt]
  rw [show ((2 ^ 16 : Nat) : Int) = 65536 by decide, h']

/-- A ModRM byte by its parts. -/
def mb (md r m : Nat) : Byte := BitVec.ofNat 8 (64 * md + 8 * r + m)

theorem mb_toNat {md r m : Nat} (h1 : md < 4) (h2 : r < 8) (h3 : m < 8) : (mb md r m).toNat = 64 * md + 8 * r + m := by
  simp only [mb, BitVec.toNat_ofNat]; omega

theorem field_mb {md r m : Nat} (h1 : md < 4) (h2 : r < 8) (h3 : m < 8) : field (mb md r m) 3 = ⟨r, h2⟩ ∧ field (mb md r m) 0 = ⟨m, h3⟩ := by
  unfold field
  simp only [mb_toNat h1 h2 h3, Nat.shiftRight_eq_div_pow]
  refine ⟨Fin.ext ?_, Fin.ext ?_⟩ <;> simp <;> omega

theorem withRM_reg {r m : Fin 8} {tail : List Byte} {k} : withRM none (mb 3 r m :: tail) k = k r (.reg m) tail := by
  have h := field_mb (md := 3) (by omega) r.2 m.2
  have ht := mb_toNat (md := 3) (by omega) r.2 m.2
  simp only [withRM, decodeRM, ht, h]
  rw [if_pos (by omega)]
  rfl

theorem withRM_direct {seg : Option SReg} {r : Fin 8} {lo hi : Byte} {tail : List Byte} {k} :
    withRM seg (mb 0 r 6 :: lo :: hi :: tail) k = k r (.mem seg .none (word lo hi)) tail := by
  have h := field_mb (md := 0) (m := 6) (by omega) r.2 (by omega)
  have ht := mb_toNat (md := 0) (m := 6) (by omega) r.2 (by omega)
  simp only [withRM, decodeRM, ht, h]
  rw [if_neg (by omega), if_pos (by omega), if_pos (by omega)]
  rfl

theorem withRM_0 {seg : Option SReg} {r : Fin 8} {c : Nat} {tail : List Byte} {k} (hc : c < 8) (h6 : c ≠ 6) :
    withRM seg (mb 0 r c :: tail) k = k r (.mem seg (Base.ofCode c) 0) tail := by
  have h := field_mb (md := 0) (by omega) r.2 hc
  have ht := mb_toNat (md := 0) (by omega) r.2 hc
  simp only [withRM, decodeRM, ht, h]
  rw [if_neg (by omega), if_pos (by omega), if_neg (by omega), show (64 * 0 + 8 * r.val + c) % 8 = c by omega]
  rfl

theorem withRM_1 {seg : Option SReg} {r : Fin 8} {c : Nat} {d : Byte} {tail : List Byte} {k} (hc : c < 8) :
    withRM seg (mb 1 r c :: d :: tail) k = k r (.mem seg (Base.ofCode c) (d.signExtend 16)) tail := by
  have h := field_mb (md := 1) (by omega) r.2 hc
  have ht := mb_toNat (md := 1) (by omega) r.2 hc
  simp only [withRM, decodeRM, ht, h]
  rw [if_neg (by omega), if_neg (by omega), if_pos (by omega), show (64 * 1 + 8 * r.val + c) % 8 = c by omega]
  rfl

theorem withRM_2 {seg : Option SReg} {r : Fin 8} {c : Nat} {lo hi : Byte} {tail : List Byte} {k} (hc : c < 8) :
    withRM seg (mb 2 r c :: lo :: hi :: tail) k = k r (.mem seg (Base.ofCode c) (word lo hi)) tail := by
  have h := field_mb (md := 2) (by omega) r.2 hc
  have ht := mb_toNat (md := 2) (by omega) r.2 hc
  simp only [withRM, decodeRM, ht, h]
  rw [if_neg (by omega), if_neg (by omega), if_neg (by omega), show (64 * 2 + 8 * r.val + c) % 8 = c by omega]
  rfl

theorem mb_mk : ∀ r c : Fin 8, (BitVec.ofNat 8 c.val ||| BitVec.ofNat 8 r.val <<< 3 : Byte) = mb 0 r c ∧
    ((BitVec.ofNat 8 c.val ||| (0x40 : Byte)) ||| BitVec.ofNat 8 r.val <<< 3) = mb 1 r c ∧
    ((BitVec.ofNat 8 c.val ||| (0x80 : Byte)) ||| BitVec.ofNat 8 r.val <<< 3) = mb 2 r c := by decide

theorem code_masks : ∀ c : Fin 8, (BitVec.ofNat 8 c.val : Byte) &&& 0xc0 = 0 ∧ (BitVec.ofNat 8 c.val ||| 0x40 : Byte) &&& 0xc0 = 0x40 ∧
    (BitVec.ofNat 8 c.val ||| 0x80 : Byte) &&& 0xc0 = 0x80 ∧ (BitVec.ofNat 8 c.val ||| 0x40 : Byte) ≠ 6 ∧
    (BitVec.ofNat 8 c.val : Byte) ≠ 0xFF ∧ (BitVec.ofNat 8 c.val ||| 0x40 : Byte) ≠ 0xFF := by decide

theorem baseCode_cases (b : Base) : (b = .none ∧ baseCode b = 0xFF) ∨ ∃ c : Fin 8, baseCode b = BitVec.ofNat 8 c.val ∧ Base.ofCode c.val = b ∧ b ≠ .none := by
  cases b
  · exact Or.inr ⟨0, rfl, rfl, by decide⟩
  · exact Or.inr ⟨1, rfl, rfl, by decide⟩
  · exact Or.inr ⟨2, rfl, rfl, by decide⟩
  · exact Or.inr ⟨3, rfl, rfl, by decide⟩
  · exact Or.inr ⟨4, rfl, rfl, by decide⟩
  · exact Or.inr ⟨5, rfl, rfl, by decide⟩
  · exact Or.inr ⟨6, rfl, rfl, by decide⟩
  · exact Or.inr ⟨7, rfl, rfl, by decide⟩
  · exact Or.inl ⟨rfl, rfl⟩

theorem fixOp_none {o : Operand} {t : FixT} (h : o.fixup = none) : fixOp o t = pure () := by unfold fixOp; rw [h]

theorem em_modrm (b : Base) (d : Int) (r : Fin 8) : ∃ bs : List Byte,
    (∀ xs va ov, Em xs va ov (outputModRM (finishMem (memO b d)) (BitVec.ofNat 8 r.val)) () bs ov xs) ∧
    ∀ seg tail k, withRM seg (bs ++ tail) k = k r (.mem seg b (BitVec.ofInt 16 d)) tail := by
  rcases baseCode_cases b with ⟨rfl, hc⟩ | ⟨c, hc, hb, hn⟩
  · have e : finishMem (memO .none d) = { memO .none d with modrm := 6 } := by
      simp [finishMem, memO, baseCode]
    rw [e]
    refine ⟨[mb 0 r 6, toByte d, toByte (d / 256)], ?_, ?_⟩
    · intro xs va ov
      unfold outputModRM
      refine Em.seq (em_assert rfl) ?_
      dsimp only
      rw [show ((6 : Byte) ||| BitVec.ofNat 8 r.val <<< 3) = mb 0 r 6 from (mb_mk r 6).1]
      refine Em.bind (bs := [mb 0 r 6]) em_out ?_
      rw [if_pos (Or.inl rfl), fixOp_none rfl]
      exact Em.seq Em.pure (Em.seq em_log em_word)
    · intro seg tail k
      show withRM seg (mb 0 r 6 :: toByte d :: toByte (d / 256) :: tail) k = _
      rw [withRM_direct, word_toByte]
  · obtain ⟨m0, m1, m2, m3, m4, m5⟩ := code_masks c
    obtain ⟨k0, k1, k2⟩ := mb_mk r c
    by_cases h0 : d = 0
    · subst h0
      by_cases h6 : c = 6
      · subst h6
        have e : finishMem (memO b 0) = { memO b 0 with modrm := 0x46 } := by
          rw [finishMem]; simp [memO, hc]
        rw [e]
        refine ⟨[mb 1 r 6, 0], ?_, ?_⟩
        · intro xs va ov
          unfold outputModRM
          refine Em.seq (em_assert rfl) ?_
          dsimp only
          rw [show ((0x46 : Byte) ||| BitVec.ofNat 8 r.val <<< 3) = mb 1 r 6 from k1]
          refine Em.bind (bs := [mb 1 r 6]) em_out ?_
          rw [if_neg (by decide), if_pos (by decide)]
          exact Em.seq em_log em_out
        · intro seg tail k
          show withRM seg (mb 1 r 6 :: 0 :: tail) k = _
          rw [withRM_1 (by omega), show Base.ofCode 6 = b from hb]
          rfl
      · have h6' : c.val ≠ 6 := fun h => h6 (Fin.ext h)
        have h6b : (BitVec.ofNat 8 c.val : Byte) ≠ 6 := by
          intro h; apply h6'
          have := congrArg BitVec.toNat h
          simp only [BitVec.toNat_ofNat] at this
          have e6 : BitVec.toNat (6 : Byte) = 6 := rfl
          omega
        have e : finishMem (memO b 0) = memO b 0 := by
          have hm : (if (memO b 0).modrm = 6 ∧ (memO b 0).disp = 0 then (memO b 0).modrm ||| 0x40 else (memO b 0).modrm) = BitVec.ofNat 8 c.val := by
            rw [if_neg (fun h => h6b (hc.symm.trans h.1))]; exact hc
          simp only [finishMem, hm]
          rw [if_neg m4, if_neg (fun h => h rfl), if_neg (fun h => h rfl), ← hc]
          rfl
        rw [e]
        refine ⟨[mb 0 r c], ?_, ?_⟩
        · intro xs va ov
          unfold outputModRM
          refine Em.seq (em_assert rfl) ?_
          simp only [show (memO b 0).modrm = BitVec.ofNat 8 c.val from hc]
          rw [k0]
          refine Em.bind (bs := [mb 0 r c]) (cs := []) em_out ?_
          rw [m0, if_neg (by rintro (h | h); exact h6b h; exact absurd h (by decide)), if_neg (by decide)]
          exact Em.pure
        · intro seg tail k
          show withRM seg (mb 0 r c :: tail) k = _
          rw [withRM_0 c.2 h6', hb]
          rfl
    · have e : finishMem (memO b d) = { memO b d with modrm := if isShort d then BitVec.ofNat 8 c.val ||| 0x40 else BitVec.ofNat 8 c.val ||| 0x80 } := by
        have hm : (if (memO b d).modrm = 6 ∧ (memO b d).disp = 0 then (memO b d).modrm ||| 0x40 else (memO b d).modrm) = BitVec.ofNat 8 c.val := by
          rw [if_neg (fun h => h0 h.2)]; exact hc
        simp only [finishMem, hm]
        rw [if_neg m4, if_neg (fun h => h rfl), if_pos (show (memO b d).disp ≠ 0 from h0)]
        rfl
      rw [e]
      cases hs : isShort d with
      | true =>
        rw [if_pos rfl]
        refine ⟨[mb 1 r c, toByte d], ?_, ?_⟩
        · intro xs va ov
          unfold outputModRM
          refine Em.seq (em_assert rfl) ?_
          dsimp only
          rw [k1]
          refine Em.bind (bs := [mb 1 r c]) em_out ?_
          rw [m1, if_neg (by rintro (h | h); exact m3 h; exact absurd h (by decide)), if_pos rfl]
          exact Em.seq em_log em_out
        · intro seg tail k
          show withRM seg (mb 1 r c :: toByte d :: tail) k = _
          rw [withRM_1 c.2, hb, short_signExtend hs]
      | false =>
        rw [if_neg (by simp)]
        refine ⟨[mb 2 r c, toByte d, toByte (d / 256)], ?_, ?_⟩
        · intro xs va ov
          unfold outputModRM
          refine Em.seq (em_assert rfl) ?_
          dsimp only
          rw [k2]
          refine Em.bind (bs := [mb 2 r c]) em_out ?_
          rw [m2, if_pos (Or.inr rfl), fixOp_none rfl]
          exact Em.seq Em.pure (Em.seq em_log em_word)
        · intro seg tail k
          show withRM seg (mb 2 r c :: toByte d :: toByte (d / 256) :: tail) k = _
          rw [withRM_2 c.2, hb, word_toByte]

/-! ## Statements -/

theorem regBits_R : ∀ w r, regBits (regO (tokR w r)) = BitVec.ofNat 8 r.val := by decide
theorem isW_R : ∀ w r, isW (regO (tokR w r)) = w := by decide
theorem isSeg_R : ∀ w r, isSeg (regO (tokR w r)) = false := by decide

def sc : SReg → Fin 8
  | .es => 0 | .cs => 1 | .ss => 2 | .ds => 3

theorem regBits_S (s : SReg) : regBits (regO (tokS s)) = BitVec.ofNat 8 (sc s).val := by cases s <;> decide
theorem isSeg_S (s : SReg) : isSeg (regO (tokS s)) = true := by cases s <;> decide
theorem isW_S (s : SReg) : isW (regO (tokS s)) = true := by cases s <;> decide
theorem ofCode_sc (s : SReg) : SReg.ofCode (sc s).val = s := by cases s <;> rfl
theorem sc_lt (s : SReg) : (sc s).val < 4 := by cases s <;> decide
theorem sc_cs {s : SReg} (h : s ≠ .cs) : (sc s).val ≠ 1 := by cases s <;> simp_all [sc]

/-- The opcode is not a prefix. -/
def NotPrefix (op : Byte) : Bool := !([0x26, 0x2e, 0x36, 0x3e, 0xf2, 0xf3].contains op.toNat)

theorem decode_op {op : Byte} {tail : List Byte} (h : NotPrefix op = true) : decode (op :: tail) = decodeOp none none op tail := by
  simp only [NotPrefix, Bool.not_eq_true', List.contains_eq_mem, decide_eq_false_iff_not, List.mem_cons, List.not_mem_nil, or_false, not_or] at h
  obtain ⟨h1, h2, h3, h4, h5, h6⟩ := h
  simp only [decode]

theorem decode_pre {es : Bool} {op : Byte} {tail : List Byte} (h : NotPrefix op = true) :
    decode (pre es ++ op :: tail) = decodeOp (segO es) none op tail := by
  cases es with
  | false => exact decode_op h
  | true => rfl

/-- On the text `xs`, `m` emits an instruction that disassembles to `a`. -/
def Good (xs rest : List Lx) (va : Int) (m : A Unit) (a : Asm) : Prop :=
  ∃ bs ov', Em xs va 0 m () bs ov' rest ∧ ∀ tail, ∃ i, decode (bs ++ tail) = some (i, tail) ∧ disasm (BitVec.ofInt 16 (va + bs.length)) i = a

theorem em_2 {α : Type} {ov1 ov2 : Nat} {o1 o2 : Operand} {p q bs : List Byte} {f : Operand × Operand → A α} {v : α} {ov3 : Nat} {zs : List Lx}
    (h1 : Em xs va 0 parseOperand o1 p ov1 (comma :: ys)) (h2 : ∀ va, Em ys va ov1 parseOperand o2 q ov2 rest)
    (hf : ∀ va, Em rest va ov2 (f (o1, o2)) v bs ov3 zs) :
    Em xs va 0 (parse2Operands >>= f) v (p ++ (q ++ bs)) ov3 zs := by
  rw [← List.append_assoc]
  refine Em.bind (bs := p ++ q) ?_ (hf _)
  unfold parse2Operands
  refine Em.bind h1 (Em.seq (em_expect rfl) ?_)
  rw [← List.append_nil q]
  exact Em.bind (h2 (va + p.length)) Em.pure

/-- The bytes of an immediate. -/
def immBytes (w : Bool) (v : Int) : List Byte := if w then [toByte v, toByte (v / 256)] else [toByte v]

theorem em_imm {v : Int} {w : Bool} : Em xs va ov (outputImm (litO v) w) () (immBytes w v) ov xs := by
  cases w with
  | false =>
    show Em _ _ _ (outputImm8 (litO v)) _ [toByte v] _ _
    exact Em.seq (em_assert rfl) em_out
  | true =>
    show Em _ _ _ (outputImm16 (litO v)) _ [toByte v, toByte (v / 256)] _ _
    unfold outputImm16
    rw [fixOp_none rfl]
    exact Em.seq Em.pure (Em.seq em_log em_word)

theorem d_imm {w : Bool} {v : Int} {tail : List Byte} {k} :
    decodeImm w (immBytes w v ++ tail) k = k (if w then BitVec.ofInt 16 v else (BitVec.ofInt 8 v).signExtend 16) tail := by
  cases w with
  | false => rfl
  | true =>
    show k (word (toByte v) (toByte (v / 256))) tail = _
    rw [word_toByte]; rfl

theorem immOpd_immOf (w : Bool) (v : Int) : immOpd w (if w then BitVec.ofInt 16 v else (BitVec.ofInt 8 v).signExtend 16) = immOf w v := by
  cases w with
  | true => rfl
  | false =>
    simp only [immOpd, immOf, Bool.false_eq_true, if_false]
    rw [(by decide +kernel : ∀ x : Byte, (x.signExtend 16).setWidth 8 = x)]

theorem fm_ty (b : Base) (d : Int) : (finishMem (memO b d)).ty = .mem := by
  unfold finishMem
  dsimp only
  repeat' split
  all_goals rfl

theorem fm_fixup (b : Base) (d : Int) : (finishMem (memO b d)).fixup = none := by
  unfold finishMem
  dsimp only
  repeat' split
  all_goals rfl

theorem fm_disp (b : Base) (d : Int) : (finishMem (memO b d)).disp = d := by
  unfold finishMem
  dsimp only
  repeat' split
  all_goals rfl

theorem fm_modrm (b : Base) (d : Int) : (finishMem (memO b d)).modrm = 6 ↔ b = .none := by
  rcases baseCode_cases b with ⟨rfl, hc⟩ | ⟨c, hc, hb, hn⟩
  · simp [finishMem, memO, baseCode]
  · refine iff_of_false ?_ hn
    obtain ⟨m0, m1, m2, m3, m4, m5⟩ := code_masks c
    have m6 : (BitVec.ofNat 8 c.val ||| 0x80 : Byte) ≠ 6 :=
      (by decide : ∀ c : Fin 8, (BitVec.ofNat 8 c.val ||| 0x80 : Byte) ≠ 6) c
    unfold finishMem
    have hm : (memO b d).modrm = BitVec.ofNat 8 c.val := hc
    rw [hm]
    dsimp only
    by_cases h6 : (BitVec.ofNat 8 c.val : Byte) = 6 ∧ (memO b d).disp = 0
    · rw [if_pos h6, if_neg m5, if_neg (fun h => h rfl), if_neg (fun h => h h6.2)]
      exact m3
    · rw [if_neg h6, if_neg m4, if_neg (fun h => h rfl)]
      split
      · dsimp only; split <;> assumption
      · rename_i h
        intro h'
        exact h6 ⟨h', by simpa using h⟩

theorem em_MR {inst : Byte} {b : Base} {d : Int} {t : Nat} {r : Fin 8} (hr : regBits (regO t) = BitVec.ofNat 8 r.val) : ∃ bs : List Byte,
    (∀ xs va ov, Em xs va ov (outputMR inst (finishMem (memO b d)) (regO t)) () ((inst ||| bit (isW (regO t) && !isSeg (regO t))) :: bs) ov xs) ∧
    ∀ seg tail k, withRM seg (bs ++ tail) k = k r (.mem seg b (BitVec.ofInt 16 d)) tail := by
  obtain ⟨bs, h1, h2⟩ := em_modrm b d r
  refine ⟨bs, fun xs va ov => ?_, h2⟩
  unfold outputMR
  refine Em.seq (em_assert (by rw [fm_ty]; rfl)) ?_
  refine Em.bind (bs := [_]) em_out ?_
  rw [hr]
  exact h1 _ _ _

variable {a : Asm}

theorem regO_ty (t : Nat) : (regO t).ty = .reg := rfl
theorem litO_ty (v : Int) : (litO v).ty = .lit := rfl

/-! ### Opcodes -/

def ac : AluOp → Byte
  | .add => 0 | .or => 0x08 | .adc => 0x10 | .sbb => 0x18 | .and => 0x20 | .sub => 0x28 | .xor => 0x30 | .cmp => 0x38

def an : AluOp → Fin 8
  | .add => 0 | .or => 1 | .adc => 2 | .sbb => 3 | .and => 4 | .sub => 5 | .xor => 6 | .cmp => 7

theorem an_ac (op : AluOp) : ac op >>> 3 = BitVec.ofNat 8 (an op).val := by cases op <;> decide
theorem ofCode_an (op : AluOp) : AluOp.ofCode (an op).val = op := by cases op <;> rfl

section
variable {seg : Option SReg} {tail : List Byte}

theorem d_mov_rm (w : Bool) : decodeOp seg none (0x88 ||| bit w) tail = withRM seg tail fun r rm rest => some (.movRmReg w rm r, rest) := by
  cases w <;> rfl
theorem d_mov_r (w : Bool) : decodeOp seg none (0x8A ||| bit w) tail = withRM seg tail fun r rm rest => some (.movRegRm w r rm, rest) := by
  cases w <;> rfl
theorem d_mov_rms : decodeOp seg none 0x8c tail = withRM seg tail fun r rm rest =>
    if r.val < 4 then some (.movRmSeg rm (SReg.ofCode r.val), rest) else none := rfl
theorem d_mov_s : decodeOp seg none 0x8e tail = withRM seg tail fun r rm rest =>
    if r.val < 4 ∧ r.val ≠ 1 then some (.movSegRm (SReg.ofCode r.val) rm, rest) else none := rfl
theorem d_alu_rm (op : AluOp) (w : Bool) : decodeOp seg none (ac op ||| bit w) tail = withRM seg tail fun r rm rest => some (.aluRmReg op w rm r, rest) := by
  cases op <;> cases w <;> rfl
theorem d_alu_r (op : AluOp) (w : Bool) : decodeOp seg none ((ac op + 2) ||| bit w) tail = withRM seg tail fun r rm rest => some (.aluRegRm op w r rm, rest) := by
  cases op <;> cases w <;> rfl
theorem d_alu_al (op : AluOp) : decodeOp none none (ac op + 4) tail = decodeImm false tail fun imm rest => some (.aluImm op false (.reg 0) imm, rest) := by
  cases op <;> rfl
theorem d_alu_ax (op : AluOp) : decodeOp none none (ac op + 5) tail = decodeImm true tail fun imm rest => some (.aluImm op true (.reg 0) imm, rest) := by
  cases op <;> rfl
theorem d_80 : decodeOp seg none 0x80 tail = withRM seg tail fun r rm rest =>
    decodeImm false rest fun imm rest => some (.aluImm (AluOp.ofCode r.val) false rm imm, rest) := rfl
theorem d_81 : decodeOp seg none 0x81 tail = withRM seg tail fun r rm rest =>
    decodeImm true rest fun imm rest => some (.aluImm (AluOp.ofCode r.val) true rm imm, rest) := rfl
theorem d_83 : decodeOp seg none 0x83 tail = withRM seg tail fun r rm rest =>
    decodeImm false rest fun imm rest => some (.aluImm (AluOp.ofCode r.val) true rm imm, rest) := rfl
theorem d_c6 : decodeOp seg none 0xc6 tail = withRM seg tail fun r rm rest =>
        if r.val = 0 then
          match rest with
          | b :: rest => some (.movImm false rm (b.zeroExtend 16), rest)
          | [] => none
        else none := rfl
theorem d_c7 : decodeOp seg none 0xc7 tail = withRM seg tail fun r rm rest =>
        if r.val = 0 then
          match rest with
          | lo :: hi :: rest => some (.movImm true rm (word lo hi), rest)
          | _ => none
        else none := rfl
theorem d_lea : decodeOp none none 0x8d tail = withRM none tail fun r rm rest =>
        match rm with
        | .mem _ base disp => some (.lea r base disp, rest)
        | .reg _ => none := rfl
end

theorem np_alu (op : AluOp) (w : Bool) : NotPrefix (ac op ||| bit w) = true ∧ NotPrefix ((ac op + 2) ||| bit w) = true ∧
    NotPrefix (ac op + 4) = true ∧ NotPrefix (ac op + 5) = true := by cases op <;> cases w <;> decide
theorem np_bit (w : Bool) : NotPrefix (0x88 ||| bit w) = true ∧ NotPrefix (0x8A ||| bit w) = true := by cases w <;> decide

theorem mb3_a : ∀ d s : Fin 8, (0xC0 ||| (BitVec.ofNat 8 d.val ||| BitVec.ofNat 8 s.val <<< 3) : Byte) = mb 3 s d := by decide
theorem mb3_b : ∀ d s : Fin 8, (0xC0 ||| BitVec.ofNat 8 s.val <<< 3 ||| BitVec.ofNat 8 d.val : Byte) = mb 3 s d := by decide

/-! ### MOV -/

theorem mov_rr {w : Bool} {d s : Fin 8} : Good (R w d :: comma :: R w s :: rest) rest va handleMOV ⟨"MOV", w, [.reg w d, .reg w s]⟩ := by
  refine ⟨[0x88 ||| bit w, mb 3 s d], 0, ?_, ?_⟩
  · unfold handleMOV
    refine em_2 (p := []) (q := []) em_reg (fun va => em_reg) (fun va => ?_)
    dsimp only
    simp only [regO_ty]
    rw [isSeg_R w d, isSeg_R w s, isW_R w d,
      regBits_R w d, regBits_R w s]
    rw [if_pos (by decide), if_pos (by decide), mb3_a]
    exact Em.bind (bs := [_]) em_out em_out
  · intro tail
    refine ⟨.movRmReg w (.reg d) s, ?_, rfl⟩
    show decode ((0x88 ||| bit w) :: mb 3 s d :: tail) = _
    rw [decode_op (np_bit w).1, d_mov_rm, withRM_reg]

theorem mov_sr {s : SReg} {r : Fin 8} (h : s ≠ .cs) : Good (kw (segName s) :: comma :: R true r :: rest) rest va handleMOV ⟨"MOV", true, [.seg s, .reg true r]⟩ := by
  refine ⟨[0x8e, mb 3 (sc s) r], 0, ?_, ?_⟩
  · unfold handleMOV
    refine em_2 (p := []) (q := []) em_seg (fun va => em_reg) (fun va => ?_)
    dsimp only
    simp only [regO_ty]
    rw [isSeg_S s, regBits_S s, regBits_R true r]
    rw [if_neg (by decide), mb3_a]
    exact Em.bind (bs := [_]) em_out em_out
  · intro tail
    refine ⟨.movSegRm s (.reg r), ?_, rfl⟩
    show decode (0x8e :: mb 3 (sc s) r :: tail) = _
    rw [decode_op (by decide), d_mov_s, withRM_reg, if_pos ⟨sc_lt s, sc_cs h⟩, ofCode_sc]

theorem mov_rs {s : SReg} {r : Fin 8} : Good (R true r :: comma :: kw (segName s) :: rest) rest va handleMOV ⟨"MOV", true, [.reg true r, .seg s]⟩ := by
  refine ⟨[0x8c, mb 3 (sc s) r], 0, ?_, ?_⟩
  · unfold handleMOV
    refine em_2 (p := []) (q := []) em_reg (fun va => em_seg) (fun va => ?_)
    dsimp only
    simp only [regO_ty]
    rw [isSeg_R true r, isSeg_S s, regBits_S s, regBits_R true r]
    rw [if_pos (by decide), if_neg (by decide), mb3_a]
    exact Em.bind (bs := [_]) em_out em_out
  · intro tail
    refine ⟨.movRmSeg (.reg r) s, ?_, rfl⟩
    show decode (0x8c :: mb 3 (sc s) r :: tail) = _
    rw [decode_op (by decide), d_mov_rms, withRM_reg, if_pos (sc_lt s), ofCode_sc]

theorem mov_ri {w : Bool} {d : Fin 8} {e : E} {v : Int} (hw : e.WF) (hv : e.val = some v) (hr : precedence (headTy rest) = 100) :
    Good (R w d :: comma :: (e.lx ++ rest)) rest va handleMOV ⟨"MOV", w, [.reg w d, immOf w v]⟩ := by
  have opb : toByte (0xB0 + (regO (tokR w d)).disp - tokAl) = BitVec.ofNat 8 (0xB0 + (if w then 8 else 0) + d.val) := by
    revert w d; decide
  have head : ∀ bs, (∀ xs va ov, Em xs va ov (outputImm (litO v) w) () bs ov xs) →
      Em (R w d :: comma :: (e.lx ++ rest)) va 0 handleMOV () (BitVec.ofNat 8 (0xB0 + (if w then 8 else 0) + d.val) :: bs) 0 rest := by
    intro bs h1
    unfold handleMOV
    refine em_2 (p := []) (q := []) em_reg (fun va => em_lit hw hv hr) (fun va => ?_)
    dsimp only
    simp only [regO_ty, litO_ty]
    rw [opb, isW_R w d]
    exact Em.bind (bs := [_]) em_out (h1 _ _ _)
  cases w with
  | false =>
    refine ⟨_, 0, head [toByte v] (fun _ _ _ => Em.seq (em_assert rfl) em_out), fun tail => ⟨.movImm false (.reg d) ((toByte v).zeroExtend 16), ?_, ?_⟩⟩
    · show decode (BitVec.ofNat 8 (0xB0 + 0 + d.val) :: toByte v :: tail) = _
      clear head opb
      fin_cases d <;> rfl
    · show Asm.mk _ _ [_, immOpd false _] = _
      simp only [immOpd, immOf, Bool.false_eq_true, if_false]
      rw [(by decide +kernel : ∀ x : Byte, (x.zeroExtend 16).setWidth 8 = x)]
      rfl
  | true =>
    refine ⟨_, 0, head [toByte v, toByte (v / 256)] ?_, fun tail => ⟨.movImm true (.reg d) (BitVec.ofInt 16 v), ?_, rfl⟩⟩
    · intro xs va ov
      unfold outputImm outputImm16
      rw [if_pos rfl, fixOp_none rfl]
      exact Em.seq Em.pure (Em.seq em_log em_word)
    · show decode (BitVec.ofNat 8 (0xB0 + 8 + d.val) :: toByte v :: toByte (v / 256) :: tail) = _
      rw [← word_toByte]
      clear head opb
      fin_cases d <;> rfl

theorem tokR_acc : ∀ w d, ((regO (tokR w d)).disp = tokAl ∨ (regO (tokR w d)).disp = tokAx) ↔ d = 0 := by decide
theorem tokR_ax : ∀ w, ((regO (tokR w 0)).disp == (tokAx : Int)) = w := by decide
theorem tokS_acc (s : SReg) : ¬ ((regO (tokS s)).disp = tokAl ∨ (regO (tokS s)).disp = tokAx) := by cases s <;> decide

theorem em_imm16m {b : Base} {d : Int} : Em xs va ov (outputImm16 (finishMem (memO b d))) () [toByte d, toByte (d / 256)] ov xs := by
  unfold outputImm16
  rw [fixOp_none (fm_fixup b d), fm_disp]
  exact Em.seq Em.pure (Em.seq em_log em_word)

theorem mov_rm {w : Bool} {d : Fin 8} {m : MemS} {b : Base} (hm : m.m.OK b) :
    Good (R w d :: comma :: (m.lx ++ rest)) rest va handleMOV ⟨"MOV", w, [.reg w d, m.opd b]⟩ := by
  by_cases hacc : b = .none ∧ d = 0
  · obtain ⟨rfl, rfl⟩ := hacc
    refine ⟨pre m.m.es ++ [0xA0 ||| bit w, toByte (dispOf m.m.items), toByte (dispOf m.m.items / 256)], ovOf m 0, ?_, fun tail =>
      ⟨.movAccMem w (segO m.m.es) (BitVec.ofInt 16 (dispOf m.m.items)), ?_, rfl⟩⟩
    · unfold handleMOV
      refine em_2 (p := []) em_reg (fun va => em_memS hm) (fun va => ?_)
      dsimp only
      simp only [fm_ty, show (regO (tokR w 0)).ty = .reg from rfl]
      rw [if_pos ⟨(fm_modrm _ _).2 rfl, (tokR_acc w 0).2 rfl⟩, tokR_ax]
      exact Em.bind (bs := [_]) em_out em_imm16m
    · rw [← word_toByte, List.append_assoc, List.cons_append, decode_pre (by cases w <;> decide)]
      cases w <;> rfl
  · obtain ⟨bs, h1, h2⟩ := em_MR (inst := 0x8A) (b := b) (d := dispOf m.m.items) (regBits_R w d)
    refine ⟨pre m.m.es ++ (0x8A ||| bit w) :: bs, ovOf m 0, ?_, fun tail =>
      ⟨.movRegRm w d (.mem (segO m.m.es) b (BitVec.ofInt 16 (dispOf m.m.items))), ?_, rfl⟩⟩
    · unfold handleMOV
      refine em_2 (p := []) em_reg (fun va => em_memS hm) (fun va => ?_)
      dsimp only
      simp only [fm_ty, show (regO (tokR w d)).ty = .reg from rfl]
      rw [if_neg (fun h => hacc ⟨(fm_modrm _ _).1 h.1, (tokR_acc w d).1 h.2⟩), isSeg_R, if_neg (by decide)]
      have := h1 rest va (ovOf m 0)
      rw [isW_R, isSeg_R, Bool.not_false, Bool.and_true] at this
      exact this
    · rw [List.append_assoc, List.cons_append, decode_pre (np_bit w).2, d_mov_r, h2]

theorem mov_mr {w : Bool} {s : Fin 8} {m : MemS} {b : Base} (hm : m.m.OK b) :
    Good (m.lx ++ comma :: R w s :: rest) rest va handleMOV ⟨"MOV", w, [m.opd b, .reg w s]⟩ := by
  by_cases hacc : b = .none ∧ s = 0
  · obtain ⟨rfl, rfl⟩ := hacc
    refine ⟨pre m.m.es ++ [0xA2 ||| bit w, toByte (dispOf m.m.items), toByte (dispOf m.m.items / 256)], ovOf m 0, ?_, fun tail =>
      ⟨.movMemAcc w (segO m.m.es) (BitVec.ofInt 16 (dispOf m.m.items)), ?_, rfl⟩⟩
    · unfold handleMOV
      refine em_2 (q := []) (em_memS hm) (fun va => em_reg) (fun va => ?_)
      dsimp only
      simp only [fm_ty, show (regO (tokR w 0)).ty = .reg from rfl]
      rw [if_pos ⟨(fm_modrm _ _).2 rfl, (tokR_acc w 0).2 rfl⟩, tokR_ax]
      exact Em.bind (bs := [_]) em_out em_imm16m
    · rw [← word_toByte, List.append_assoc, List.cons_append, decode_pre (by cases w <;> decide)]
      cases w <;> rfl
  · obtain ⟨bs, h1, h2⟩ := em_MR (inst := 0x88) (b := b) (d := dispOf m.m.items) (regBits_R w s)
    refine ⟨pre m.m.es ++ (0x88 ||| bit w) :: bs, ovOf m 0, ?_, fun tail =>
      ⟨.movRmReg w (.mem (segO m.m.es) b (BitVec.ofInt 16 (dispOf m.m.items))) s, ?_, rfl⟩⟩
    · unfold handleMOV
      refine em_2 (q := []) (em_memS hm) (fun va => em_reg) (fun va => ?_)
      dsimp only
      simp only [fm_ty, show (regO (tokR w s)).ty = .reg from rfl]
      rw [if_neg (fun h => hacc ⟨(fm_modrm _ _).1 h.1, (tokR_acc w s).1 h.2⟩), isSeg_R, if_neg (by decide)]
      have := h1 rest va (ovOf m 0)
      rw [isW_R, isSeg_R, Bool.not_false, Bool.and_true] at this
      exact this
    · rw [List.append_assoc, List.cons_append, decode_pre (np_bit w).1, d_mov_rm, h2]

theorem mov_sm {s : SReg} {m : MemS} {b : Base} (hs : s ≠ .cs) (hm : m.m.OK b) :
    Good (kw (segName s) :: comma :: (m.lx ++ rest)) rest va handleMOV ⟨"MOV", true, [.seg s, m.opd b]⟩ := by
  obtain ⟨bs, h1, h2⟩ := em_MR (inst := 0x8E) (b := b) (d := dispOf m.m.items) (regBits_S s)
  refine ⟨pre m.m.es ++ 0x8E :: bs, ovOf m 0, ?_, fun tail =>
    ⟨.movSegRm s (.mem (segO m.m.es) b (BitVec.ofInt 16 (dispOf m.m.items))), ?_, rfl⟩⟩
  · unfold handleMOV
    refine em_2 (p := []) em_seg (fun va => em_memS hm) (fun va => ?_)
    dsimp only
    simp only [fm_ty, show (regO (tokS s)).ty = .reg from rfl]
    rw [if_neg (fun h => tokS_acc s h.2), isSeg_S, if_pos rfl]
    have := h1 rest va (ovOf m 0)
    rw [isW_S, isSeg_S] at this
    exact this
  · rw [List.append_assoc, List.cons_append, decode_pre (by decide), d_mov_s, h2, if_pos ⟨sc_lt s, sc_cs hs⟩, ofCode_sc]

theorem mov_ms {s : SReg} {m : MemS} {b : Base} (hm : m.m.OK b) :
    Good (m.lx ++ comma :: kw (segName s) :: rest) rest va handleMOV ⟨"MOV", true, [m.opd b, .seg s]⟩ := by
  obtain ⟨bs, h1, h2⟩ := em_MR (inst := 0x8C) (b := b) (d := dispOf m.m.items) (regBits_S s)
  refine ⟨pre m.m.es ++ 0x8C :: bs, ovOf m 0, ?_, fun tail =>
    ⟨.movRmSeg (.mem (segO m.m.es) b (BitVec.ofInt 16 (dispOf m.m.items))) s, ?_, rfl⟩⟩
  · unfold handleMOV
    refine em_2 (q := []) (em_memS hm) (fun va => em_seg) (fun va => ?_)
    dsimp only
    simp only [fm_ty, show (regO (tokS s)).ty = .reg from rfl]
    rw [if_neg (fun h => tokS_acc s h.2), isSeg_S, if_pos rfl]
    have := h1 rest va (ovOf m 0)
    rw [isW_S, isSeg_S] at this
    exact this
  · rw [List.append_assoc, List.cons_append, decode_pre (by decide), d_mov_rms, h2, if_pos (sc_lt s), ofCode_sc]

theorem em_MImm {b : Base} {d v : Int} {w short : Bool} {inst : Byte} {r : Fin 8} (hsh : (w && inst == 0x80 && isShort v) = short) : ∃ bs : List Byte,
    (∀ xs va, Em xs va (if w then 2 else 1) (outputMImm inst (BitVec.ofNat 8 r.val) (finishMem (memO b d)) (litO v)) ()
      (((if short then inst ||| 3 else inst) ||| bit (w && !short)) :: (bs ++ immBytes (w && !short) v)) (if w then 2 else 1) xs) ∧
    (∀ seg tail k, withRM seg (bs ++ tail) k = k r (.mem seg b (BitVec.ofInt 16 d)) tail) := by
  obtain ⟨bs, h1, h2⟩ := em_modrm b d r
  refine ⟨bs, fun xs va => ?_, h2⟩
  unfold outputMImm
  refine Em.seq (em_assert (by rw [fm_ty]; rfl)) ?_
  refine Em.getS (fun s h3 h4 => ?_)
  have e0 : (s.sizeOv != 0) = true := by rw [h4]; cases w <;> rfl
  have e1 : (s.sizeOv != 1) = w := by rw [h4]; cases w <;> rfl
  have e2 : (w && inst == 0x80 && (litO v).fixup == none && isShort (litO v).disp) = short := by
    rw [← hsh, show ((litO v).fixup == none) = true from rfl, Bool.and_true]; rfl
  simp only [e0, e1, e2]
  refine Em.seq (em_assert rfl) ?_
  refine Em.bind (bs := [_]) em_out ?_
  refine Em.bind (h1 _ _ _) ?_
  cases short with
  | false => rw [if_neg (by decide)]; exact em_imm
  | true => rw [if_pos rfl]; exact Em.seq em_log em_imm

theorem ovOf_some {m : MemS} {w : Bool} (h : m.sz = some w) : ovOf m 0 = if w then 2 else 1 := by
  unfold ovOf; rw [h]; cases w <;> rfl

theorem comma_prec (xs : List Lx) : precedence (headTy (comma :: xs)) = 100 := rfl

theorem mov_mi {w : Bool} {m : MemS} {b : Base} {e : E} {v : Int} (hm : m.m.OK b) (hs : m.sz = some w) (hw : e.WF) (hv : e.val = some v)
    (hr : precedence (headTy rest) = 100) :
    Good (m.lx ++ comma :: (e.lx ++ rest)) rest va handleMOV ⟨"MOV", w, [m.opd b, immOf w v]⟩ := by
  obtain ⟨bs, h1, h2⟩ := em_MImm (b := b) (d := dispOf m.m.items) (v := v) (w := w) (inst := 0xC6) (r := 0) (short := false) (by simp)
  have hov := ovOf_some hs
  have key : Em (m.lx ++ comma :: (e.lx ++ rest)) va 0 handleMOV () (pre m.m.es ++ ((0xC6 ||| bit (w && !false)) :: (bs ++ immBytes (w && !false) v)))
      (if w then 2 else 1) rest := by
    unfold handleMOV
    refine em_2 (q := []) (hov ▸ em_memS hm) (fun va => em_lit hw hv hr) (fun va => ?_)
    dsimp only
    simp only [fm_ty, litO_ty]
    exact h1 _ _
  cases w with
  | false =>
    refine ⟨_, _, key, fun tail => ⟨.movImm false (.mem (segO m.m.es) b (BitVec.ofInt 16 (dispOf m.m.items))) ((toByte v).zeroExtend 16), ?_, ?_⟩⟩
    · simp only [List.append_assoc, List.cons_append]
      rw [decode_pre (by decide)]
      show decodeOp _ none 0xc6 _ = _
      rw [d_c6, h2]
      rfl
    · show Asm.mk _ _ [_, immOpd false _] = _
      simp only [immOpd, immOf, Bool.false_eq_true, if_false]
      rw [(by decide +kernel : ∀ x : Byte, (x.zeroExtend 16).setWidth 8 = x)]
      rfl
  | true =>
    refine ⟨_, _, key, fun tail => ⟨.movImm true (.mem (segO m.m.es) b (BitVec.ofInt 16 (dispOf m.m.items))) (BitVec.ofInt 16 v), ?_, rfl⟩⟩
    simp only [List.append_assoc, List.cons_append]
    rw [decode_pre (by decide)]
    show decodeOp _ none 0xc7 _ = _
    rw [d_c7, h2, ← word_toByte v]
    rfl

/-! ### The ALU instructions -/

theorem alu_rr {op : AluOp} {w : Bool} {d s : Fin 8} :
    Good (R w d :: comma :: R w s :: rest) rest va (handleALU (ac op)) ⟨aluName op, w, [.reg w d, .reg w s]⟩ := by
  refine ⟨[ac op ||| bit w, mb 3 s d], 0, ?_, ?_⟩
  · unfold handleALU
    refine em_2 (p := []) (q := []) em_reg (fun va => em_reg) (fun va => ?_)
    dsimp only
    simp only [regO_ty]
    rw [isW_R, regBits_R, regBits_R, mb3_b]
    exact Em.bind (bs := [_]) em_out em_out
  · intro tail
    refine ⟨.aluRmReg op w (.reg d) s, ?_, rfl⟩
    show decode ((ac op ||| bit w) :: mb 3 s d :: tail) = _
    rw [decode_op (np_alu op w).1, d_alu_rm, withRM_reg]

theorem tokR_al : ∀ w d, (regO (tokR w d)).disp = tokAl ↔ w = false ∧ d = 0 := by decide
theorem tokR_ax' : ∀ w d, (regO (tokR w d)).disp = tokAx ↔ w = true ∧ d = 0 := by decide

theorem mb3_c (op : AluOp) : ∀ d : Fin 8, (0xC0 ||| BitVec.ofNat 8 d.val ||| ac op : Byte) = mb 3 (an op) d := by cases op <;> decide

theorem short_imm {v : Int} (h : isShort v = true) : (toByte v).signExtend 16 = BitVec.ofInt 16 v := short_signExtend h

theorem alu_ri {op : AluOp} {w : Bool} {d : Fin 8} {e : E} {v : Int} (hw : e.WF) (hv : e.val = some v) (hr : precedence (headTy rest) = 100) :
    Good (R w d :: comma :: (e.lx ++ rest)) rest va (handleALU (ac op)) ⟨aluName op, w, [.reg w d, immOf w v]⟩ := by
  have parse : ∀ (f : Operand × Operand → A Unit) bs, (∀ va, Em rest va 0 (f (regO (tokR w d), litO v)) () bs 0 rest) →
      Em (R w d :: comma :: (e.lx ++ rest)) va 0 (parse2Operands >>= f) () bs 0 rest := by
    intro f bs hf
    exact em_2 (p := []) (q := []) em_reg (fun va => em_lit hw hv hr) hf
  by_cases h0 : d = 0
  · subst h0
    cases w with
    | false =>
      refine ⟨[ac op + 4, toByte v], 0, parse _ _ (fun va => ?_), fun tail => ⟨.aluImm op false (.reg 0) ((toByte v).signExtend 16), ?_, ?_⟩⟩
      · dsimp only
        simp only [regO_ty, litO_ty]
        rw [if_pos ((tokR_al false 0).2 ⟨rfl, rfl⟩)]
        exact Em.bind (bs := [_]) em_out (Em.seq (em_assert rfl) em_out)
      · show decode ((ac op + 4) :: toByte v :: tail) = _
        rw [decode_op (np_alu op true).2.2.1, d_alu_al]
        rfl
      · show Asm.mk _ _ [_, immOpd false _] = _
        rw [← immOpd_immOf]; rfl
    | true =>
      refine ⟨[ac op + 5, toByte v, toByte (v / 256)], 0, parse _ _ (fun va => ?_), fun tail => ⟨.aluImm op true (.reg 0) (BitVec.ofInt 16 v), ?_, rfl⟩⟩
      · dsimp only
        simp only [regO_ty, litO_ty]
        rw [if_neg (fun h => absurd ((tokR_al true 0).1 h).1 (by decide)), if_pos ((tokR_ax' true 0).2 ⟨rfl, rfl⟩)]
        refine Em.bind (bs := [_]) em_out ?_
        unfold outputImm16
        rw [fixOp_none rfl]
        exact Em.seq Em.pure (Em.seq em_log em_word)
      · show decode ((ac op + 5) :: toByte v :: toByte (v / 256) :: tail) = _
        rw [decode_op (np_alu op true).2.2.2, d_alu_ax, ← word_toByte]
        rfl
  · obtain ⟨short, hs⟩ : ∃ short, (w && isShort v) = short := ⟨_, rfl⟩
    have hs' : (w && (litO v).fixup == none && isShort (litO v).disp) = short := by
      rw [← hs, show ((litO v).fixup == none) = true from rfl, Bool.and_true]; rfl
    refine ⟨((0x80 ||| bit w) ||| (if short then 2 else 0)) :: mb 3 (an op) d :: immBytes (w && !short) v, 0, parse _ _ (fun va => ?_), fun tail =>
      ⟨.aluImm op w (.reg d) (if w then BitVec.ofInt 16 v else (BitVec.ofInt 8 v).signExtend 16), ?_, ?_⟩⟩
    · dsimp only
      simp only [regO_ty, litO_ty]
      rw [if_neg (fun h => h0 ((tokR_al _ _).1 h).2), if_neg (fun h => h0 ((tokR_ax' _ _).1 h).2)]
      simp only [isW_R, regBits_R, hs']
      rw [mb3_c]
      refine Em.bind (bs := [_]) em_out (Em.bind (bs := [_]) em_out ?_)
      cases short with
      | false => rw [if_neg (by decide)]; exact em_imm
      | true => rw [if_pos rfl]; exact Em.seq em_log em_imm
    · rw [List.cons_append, List.cons_append]
      cases w with
      | false =>
        rw [show short = false from hs.symm, decode_op (by decide)]
        show decodeOp none none 0x80 (_ :: (immBytes false v ++ tail)) = _
        rw [d_80, withRM_reg, ofCode_an, d_imm]
      | true =>
        cases short with
        | true =>
          rw [decode_op (by decide)]
          show decodeOp none none 0x83 (_ :: (immBytes false v ++ tail)) = _
          rw [d_83, withRM_reg, ofCode_an, d_imm]
          show some (Instr.aluImm op true (.reg d) ((toByte v).signExtend 16), tail) = _
          rw [short_imm (by simpa using hs)]; rfl
        | false =>
          rw [decode_op (by decide)]
          show decodeOp none none 0x81 (_ :: (immBytes true v ++ tail)) = _
          rw [d_81, withRM_reg, ofCode_an, d_imm]
    · show Asm.mk _ _ [_, immOpd w _] = _
      rw [immOpd_immOf]; rfl

theorem alu_rm {op : AluOp} {w : Bool} {d : Fin 8} {m : MemS} {b : Base} (hm : m.m.OK b) :
    Good (R w d :: comma :: (m.lx ++ rest)) rest va (handleALU (ac op)) ⟨aluName op, w, [.reg w d, m.opd b]⟩ := by
  obtain ⟨bs, h1, h2⟩ := em_MR (inst := ac op + 2) (b := b) (d := dispOf m.m.items) (regBits_R w d)
  refine ⟨pre m.m.es ++ ((ac op + 2) ||| bit w) :: bs, ovOf m 0, ?_, fun tail =>
    ⟨.aluRegRm op w d (.mem (segO m.m.es) b (BitVec.ofInt 16 (dispOf m.m.items))), ?_, rfl⟩⟩
  · unfold handleALU
    refine em_2 (p := []) em_reg (fun va => em_memS hm) (fun va => ?_)
    dsimp only
    simp only [fm_ty, regO_ty]
    have := h1 rest va (ovOf m 0)
    rw [isW_R, isSeg_R, Bool.not_false, Bool.and_true] at this
    exact this
  · rw [List.append_assoc, List.cons_append, decode_pre (np_alu op w).2.1, d_alu_r, h2]

theorem alu_mr {op : AluOp} {w : Bool} {s : Fin 8} {m : MemS} {b : Base} (hm : m.m.OK b) :
    Good (m.lx ++ comma :: R w s :: rest) rest va (handleALU (ac op)) ⟨aluName op, w, [m.opd b, .reg w s]⟩ := by
  obtain ⟨bs, h1, h2⟩ := em_MR (inst := ac op) (b := b) (d := dispOf m.m.items) (regBits_R w s)
  refine ⟨pre m.m.es ++ (ac op ||| bit w) :: bs, ovOf m 0, ?_, fun tail =>
    ⟨.aluRmReg op w (.mem (segO m.m.es) b (BitVec.ofInt 16 (dispOf m.m.items))) s, ?_, rfl⟩⟩
  · unfold handleALU
    refine em_2 (q := []) (em_memS hm) (fun va => em_reg) (fun va => ?_)
    dsimp only
    simp only [fm_ty, regO_ty]
    have := h1 rest va (ovOf m 0)
    rw [isW_R, isSeg_R, Bool.not_false, Bool.and_true] at this
    exact this
  · rw [List.append_assoc, List.cons_append, decode_pre (np_alu op w).1, d_alu_rm, h2]

theorem alu_mi {op : AluOp} {w : Bool} {m : MemS} {b : Base} {e : E} {v : Int} (hm : m.m.OK b) (hs : m.sz = some w) (hw : e.WF) (hv : e.val = some v)
    (hr : precedence (headTy rest) = 100) :
    Good (m.lx ++ comma :: (e.lx ++ rest)) rest va (handleALU (ac op)) ⟨aluName op, w, [m.opd b, immOf w v]⟩ := by
  obtain ⟨short, hs'⟩ : ∃ short, (w && (0x80 : Byte) == 0x80 && isShort v) = short := ⟨_, rfl⟩
  obtain ⟨bs, h1, h2⟩ := em_MImm (b := b) (d := dispOf m.m.items) (r := an op) hs'
  have hov := ovOf_some hs
  refine ⟨pre m.m.es ++ (((if short then 0x80 ||| 3 else 0x80) ||| bit (w && !short)) :: (bs ++ immBytes (w && !short) v)), if w then 2 else 1, ?_, fun tail =>
    ⟨.aluImm op w (.mem (segO m.m.es) b (BitVec.ofInt 16 (dispOf m.m.items))) (if w then BitVec.ofInt 16 v else (BitVec.ofInt 8 v).signExtend 16), ?_, ?_⟩⟩
  · unfold handleALU
    refine em_2 (q := []) (hov ▸ em_memS hm) (fun va => em_lit hw hv hr) (fun va => ?_)
    dsimp only
    simp only [fm_ty, litO_ty, an_ac]
    exact h1 _ _
  · simp only [List.append_assoc, List.cons_append]
    cases w with
    | false =>
      rw [show short = false from hs'.symm, decode_pre (by decide)]
      show decodeOp _ none 0x80 (bs ++ (immBytes false v ++ tail)) = _
      rw [d_80, h2, ofCode_an, d_imm]
    | true =>
      cases short with
      | true =>
        rw [decode_pre (by decide)]
        show decodeOp _ none 0x83 (bs ++ (immBytes false v ++ tail)) = _
        rw [d_83, h2, ofCode_an, d_imm]
        show some (Instr.aluImm op true _ ((toByte v).signExtend 16), tail) = _
        rw [short_imm (by simpa using hs')]; rfl
      | false =>
        rw [decode_pre (by decide)]
        show decodeOp _ none 0x81 (bs ++ (immBytes true v ++ tail)) = _
        rw [d_81, h2, ofCode_an, d_imm]
  · show Asm.mk _ _ [_, immOpd w _] = _
    rw [immOpd_immOf]; rfl

end Props.SasEnc
