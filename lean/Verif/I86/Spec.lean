import Verif.Mem
/-!
# An independent specification of the 8086 subset used by the tool chain

This file does not model any code of `/repo`.  It is the yardstick: the part of the 8086 that the
simulator implements and that the compiler, the assembler and the library rely on, written from the
processor manual over 16-bit words (the simulator of `/repo/sim86.c` keeps registers in untrimmed
32-bit host integers instead, and interleaves decoding with execution).

* Instructions are decoded to an abstract syntax (`Instr`) first.
* A flag is `Option Bool`; `none` means "left undefined by the manual".  Using an undefined flag makes
  the outcome `Out.undef`, so code proved correct here never relies on one.
* `Contract` collects the points where processors (and the simulator) legitimately differ; theorems
  about generated code are stated for every `Contract`, `Contract.real` is the 8086.
-/

namespace I86

abbrev Word := BitVec 16

inductive SReg | es | cs | ss | ds
  deriving DecidableEq, Repr

inductive AluOp | add | or | adc | sbb | and | sub | xor | cmp
  deriving DecidableEq, Repr

/-- The base/index part of a memory operand. -/
inductive Base | bxsi | bxdi | bpsi | bpdi | si | di | bp | bx | none
  deriving DecidableEq, Repr

/-- Register or memory operand.  Register numbers are 0..7 = AX CX DX BX SP BP SI DI for words and
AL CL DL BL AH CH DH BH for bytes. -/
inductive RM
  | reg (r : Fin 8)
  | mem (seg : Option SReg) (base : Base) (disp : Word)
  deriving DecidableEq, Repr

inductive ShiftOp | shl | shr | sar
  deriving DecidableEq, Repr

inductive Count | one | cl
  deriving DecidableEq, Repr

inductive Un | not | neg | mul | imul | div | idiv
  deriving DecidableEq, Repr

/-- Abstract instructions; `w = true` means word size. -/
inductive Instr
  | aluRmReg (op : AluOp) (w : Bool) (dst : RM) (src : Fin 8)
  | aluRegRm (op : AluOp) (w : Bool) (dst : Fin 8) (src : RM)
  | aluImm (op : AluOp) (w : Bool) (dst : RM) (imm : Word)
  | pushSeg (s : SReg)
  | popSeg (s : SReg)
  | incDec (dec : Bool) (w : Bool) (rm : RM)
  | push (r : Fin 8)
  | pop (r : Fin 8)
  | jcc (cc : Fin 16) (rel : Word)
  | xchgAx (r : Fin 8)
  | movRmReg (w : Bool) (dst : RM) (src : Fin 8)
  | movRegRm (w : Bool) (dst : Fin 8) (src : RM)
  | movImm (w : Bool) (dst : RM) (imm : Word)
  | movRmSeg (dst : RM) (s : SReg)
  | movSegRm (s : SReg) (src : RM)
  | lea (r : Fin 8) (base : Base) (disp : Word)
  | cbw
  | cwd
  | movAccMem (w : Bool) (seg : Option SReg) (off : Word)
  | movMemAcc (w : Bool) (seg : Option SReg) (off : Word)
  | repMovs (w : Bool)
  | repeCmpsb
  | stos (w : Bool)
  | repStos (w : Bool)
  | lods (w : Bool)
  | repneScasb
  | ret
  | int (n : Byte)
  | shift (op : ShiftOp) (c : Count) (rm : RM)
  | call (rel : Word)
  | jmp (rel : Word)
  | unary (u : Un) (rm : RM)
  | callRm (rm : RM)
  deriving DecidableEq, Repr

/-! ## Decoding -/

def AluOp.ofCode : Nat → AluOp
  | 0 => .add | 1 => .or | 2 => .adc | 3 => .sbb | 4 => .and | 5 => .sub | 6 => .xor | _ => .cmp

def SReg.ofCode : Nat → SReg
  | 0 => .es | 1 => .cs | 2 => .ss | _ => .ds

def Base.ofCode : Nat → Base
  | 0 => .bxsi | 1 => .bxdi | 2 => .bpsi | 3 => .bpdi | 4 => .si | 5 => .di | 6 => .bp | _ => .bx

/-- Three-bit field `[k+2:k]` of a byte. -/
def field (b : Byte) (k : Nat) : Fin 8 := ⟨(b.toNat >>> k) % 8, Nat.mod_lt _ (by omega)⟩

/-- Little-endian word. -/
def word (lo hi : Byte) : Word := hi ++ lo

/-- Decode the operand of a ModRM byte `b`, returning it and the bytes after its displacement. -/
def decodeRM (seg : Option SReg) (b : Byte) (rest : List Byte) : Option (RM × List Byte) :=
  let md := b.toNat / 64
  let rm := b.toNat % 8
  if md = 3 then some (.reg (field b 0), rest)
  else if md = 0 then
    if rm = 6 then
      match rest with
      | lo :: hi :: rest => some (.mem seg .none (word lo hi), rest)
      | _ => none
    else some (.mem seg (Base.ofCode rm) 0, rest)
  else if md = 1 then
    match rest with
    | d :: rest => some (.mem seg (Base.ofCode rm) (d.signExtend 16), rest)
    | _ => none
  else
    match rest with
    | lo :: hi :: rest => some (.mem seg (Base.ofCode rm) (word lo hi), rest)
    | _ => none

/-- A segment prefix only makes sense with a memory operand. -/
def segOk (seg : Option SReg) : RM → Bool
  | .reg _ => seg.isNone
  | .mem .. => true

/-- Decode a ModRM operand and build an instruction from it and the reg field. -/
def withRM (seg : Option SReg) (rest : List Byte) (k : Fin 8 → RM → List Byte → Option (Instr × List Byte)) :
    Option (Instr × List Byte) :=
  match rest with
  | b :: rest =>
    match decodeRM seg b rest with
    | some (rm, rest) => if segOk seg rm then k (field b 3) rm rest else none
    | none => none
  | [] => none

/-- An immediate of the operand size, sign-extended from a byte when `w = false`. -/
def decodeImm (w : Bool) (rest : List Byte) (k : Word → List Byte → Option (Instr × List Byte)) :
    Option (Instr × List Byte) :=
  if w then
    match rest with
    | lo :: hi :: rest => k (word lo hi) rest
    | _ => none
  else
    match rest with
    | b :: rest => k (b.signExtend 16) rest
    | _ => none

/-- Only without a segment prefix. -/
def noSeg (seg : Option SReg) (x : Option (Instr × List Byte)) : Option (Instr × List Byte) :=
  match seg with
  | none => x
  | some _ => none

inductive Rep | repne | rep
  deriving DecidableEq, Repr

def repPlain (rep : Option Rep) (x : Option (Instr × List Byte)) : Option (Instr × List Byte) :=
  match rep with
  | none => x
  | some _ => none

def repIs (r : Rep) (rep : Option Rep) (x : Option (Instr × List Byte)) : Option (Instr × List Byte) :=
  if rep = some r then x else none

/-- Opcodes 80..FF except the register groups 90..97 and B0..BF. -/
def decodeHigh (seg : Option SReg) (rep : Option Rep) (n : Nat) (rest : List Byte) : Option (Instr × List Byte) :=
  let w := n % 2 == 1
  match n with
    | 0x80 | 0x82 | 0x83 =>
      repPlain rep <| withRM seg rest fun r rm rest =>
        decodeImm false rest fun imm rest => some (.aluImm (AluOp.ofCode r.val) w rm imm, rest)
    | 0x81 =>
      repPlain rep <| withRM seg rest fun r rm rest =>
        decodeImm true rest fun imm rest => some (.aluImm (AluOp.ofCode r.val) w rm imm, rest)
    | 0x88 | 0x89 => repPlain rep <| withRM seg rest fun r rm rest => some (.movRmReg w rm r, rest)
    | 0x8a | 0x8b => repPlain rep <| withRM seg rest fun r rm rest => some (.movRegRm w r rm, rest)
    | 0x8c =>
      repPlain rep <| withRM seg rest fun r rm rest =>
        if r.val < 4 then some (.movRmSeg rm (SReg.ofCode r.val), rest) else none
    | 0x8d =>
      repPlain rep <| noSeg seg <| withRM seg rest fun r rm rest =>
        match rm with
        | .mem _ base disp => some (.lea r base disp, rest)
        | .reg _ => none
    | 0x8e =>
      repPlain rep <| withRM seg rest fun r rm rest =>
        if r.val < 4 ∧ r.val ≠ 1 then some (.movSegRm (SReg.ofCode r.val) rm, rest) else none
    | 0x98 => repPlain rep <| noSeg seg <| some (.cbw, rest)
    | 0x99 => repPlain rep <| noSeg seg <| some (.cwd, rest)
    | 0xa0 | 0xa1 =>
      repPlain rep <| match rest with
      | lo :: hi :: rest => some (.movAccMem w seg (word lo hi), rest)
      | _ => none
    | 0xa2 | 0xa3 =>
      repPlain rep <| match rest with
      | lo :: hi :: rest => some (.movMemAcc w seg (word lo hi), rest)
      | _ => none
    | 0xa4 | 0xa5 => repIs .rep rep <| noSeg seg <| some (.repMovs w, rest)
    | 0xa6 => repIs .rep rep <| noSeg seg <| some (.repeCmpsb, rest)
    | 0xaa | 0xab =>
      noSeg seg <| match rep with
      | none => some (.stos w, rest)
      | some .rep => some (.repStos w, rest)
      | some .repne => none
    | 0xac | 0xad => repPlain rep <| noSeg seg <| some (.lods w, rest)
    | 0xae => repIs .repne rep <| noSeg seg <| some (.repneScasb, rest)
    | 0xc3 => repPlain rep <| noSeg seg <| some (.ret, rest)
    | 0xc6 =>
      repPlain rep <| withRM seg rest fun r rm rest =>
        if r.val = 0 then
          match rest with
          | b :: rest => some (.movImm false rm (b.zeroExtend 16), rest)
          | [] => none
        else none
    | 0xc7 =>
      repPlain rep <| withRM seg rest fun r rm rest =>
        if r.val = 0 then
          match rest with
          | lo :: hi :: rest => some (.movImm true rm (word lo hi), rest)
          | _ => none
        else none
    | 0xcd =>
      repPlain rep <| noSeg seg <| match rest with
      | b :: rest => some (.int b, rest)
      | [] => none
    | 0xd1 | 0xd3 =>
      repPlain rep <| withRM seg rest fun r rm rest =>
        let c := if n = 0xd1 then Count.one else .cl
        match r.val with
        | 4 => some (.shift .shl c rm, rest)
        | 5 => some (.shift .shr c rm, rest)
        | 7 => some (.shift .sar c rm, rest)
        | _ => none
    | 0xe8 =>
      repPlain rep <| noSeg seg <| match rest with
      | lo :: hi :: rest => some (.call (word lo hi), rest)
      | _ => none
    | 0xe9 =>
      repPlain rep <| noSeg seg <| match rest with
      | lo :: hi :: rest => some (.jmp (word lo hi), rest)
      | _ => none
    | 0xeb =>
      repPlain rep <| noSeg seg <| match rest with
      | b :: rest => some (.jmp (b.signExtend 16), rest)
      | [] => none
    | 0xf7 =>
      repPlain rep <| withRM seg rest fun r rm rest =>
        match r.val with
        | 2 => some (.unary .not rm, rest)
        | 3 => some (.unary .neg rm, rest)
        | 4 => some (.unary .mul rm, rest)
        | 5 => some (.unary .imul rm, rest)
        | 6 => some (.unary .div rm, rest)
        | 7 => some (.unary .idiv rm, rest)
        | _ => none
    | 0xfe =>
      repPlain rep <| withRM seg rest fun r rm rest =>
        match r.val with
        | 0 => some (.incDec false false rm, rest)
        | 1 => some (.incDec true false rm, rest)
        | _ => none
    | 0xff =>
      repPlain rep <| withRM seg rest fun r rm rest =>
        match r.val with
        | 0 => some (.incDec false true rm, rest)
        | 1 => some (.incDec true true rm, rest)
        | 2 => some (.callRm rm, rest)
        | _ => none
    | _ => none

/-- Decode the instruction with opcode byte `op`, given the prefixes seen. -/
def decodeOp (seg : Option SReg) (rep : Option Rep) (op : Byte) (rest : List Byte) :
    Option (Instr × List Byte) :=
  let n := op.toNat
  let w := n % 2 == 1
  if n < 0x40 then
    let alu := AluOp.ofCode (n / 8 % 8)
    match n % 8 / 2 with
    | 0 => repPlain rep <| withRM seg rest fun r rm rest => some (.aluRmReg alu w rm r, rest)
    | 1 => repPlain rep <| withRM seg rest fun r rm rest => some (.aluRegRm alu w r rm, rest)
    | 2 => repPlain rep <| noSeg seg <| decodeImm w rest fun imm rest => some (.aluImm alu w (.reg 0) imm, rest)
    | _ =>
      if n < 0x20 then
        repPlain rep <| noSeg seg <|
          if w then (if n / 8 = 1 then none else some (.popSeg (SReg.ofCode (n / 8)), rest))
          else some (.pushSeg (SReg.ofCode (n / 8)), rest)
      else none
  else if n < 0x48 then repPlain rep <| noSeg seg <| some (.incDec false true (.reg (field op 0)), rest)
  else if n < 0x50 then repPlain rep <| noSeg seg <| some (.incDec true true (.reg (field op 0)), rest)
  else if n < 0x58 then repPlain rep <| noSeg seg <| some (.push (field op 0), rest)
  else if n < 0x60 then repPlain rep <| noSeg seg <| some (.pop (field op 0), rest)
  else if n < 0x70 then none
  else if n < 0x80 then
    repPlain rep <| noSeg seg <|
      match rest with
      | b :: rest => some (.jcc ⟨n % 16, Nat.mod_lt _ (by omega)⟩ (b.signExtend 16), rest)
      | [] => none
  else if 0x90 ≤ n ∧ n < 0x98 then repPlain rep <| noSeg seg <| some (.xchgAx (field op 0), rest)
  else if 0xb0 ≤ n ∧ n < 0xb8 then
    repPlain rep <| noSeg seg <|
      match rest with
      | b :: rest => some (.movImm false (.reg (field op 0)) (b.zeroExtend 16), rest)
      | [] => none
  else if 0xb8 ≤ n ∧ n < 0xc0 then
    repPlain rep <| noSeg seg <|
      match rest with
      | lo :: hi :: rest => some (.movImm true (.reg (field op 0)) (word lo hi), rest)
      | _ => none
  else decodeHigh seg rep n rest

/-- Decode one instruction, allowing one segment and one repeat prefix (in that order). -/
def decode : List Byte → Option (Instr × List Byte)
  | op :: rest =>
    match op.toNat with
    | 0x26 => afterSeg .es rest
    | 0x2e => afterSeg .cs rest
    | 0x36 => afterSeg .ss rest
    | 0x3e => afterSeg .ds rest
    | 0xf2 => afterRep .repne rest
    | 0xf3 => afterRep .rep rest
    | _ => decodeOp none none op rest
  | [] => none
where
  afterSeg (s : SReg) : List Byte → Option (Instr × List Byte)
    | op :: rest => decodeOp (some s) none op rest
    | [] => none
  afterRep (r : Rep) : List Byte → Option (Instr × List Byte)
    | op :: rest => decodeOp none (some r) op rest
    | [] => none

/-! ## Processor state -/

abbrev Flag := Option Bool

structure Cpu where
  ax : Word
  cx : Word
  dx : Word
  bx : Word
  sp : Word
  bp : Word
  si : Word
  di : Word
  es : Word
  cs : Word
  ss : Word
  ds : Word
  ip : Word
  cf : Flag
  zf : Flag
  sf : Flag
  of : Flag
  mem : Mem 20

namespace Cpu

def reg16 (c : Cpu) : Fin 8 → Word
  | 0 => c.ax | 1 => c.cx | 2 => c.dx | 3 => c.bx | 4 => c.sp | 5 => c.bp | 6 => c.si | 7 => c.di

def setReg16 (c : Cpu) (r : Fin 8) (v : Word) : Cpu :=
  match r with
  | 0 => { c with ax := v } | 1 => { c with cx := v } | 2 => { c with dx := v } | 3 => { c with bx := v }
  | 4 => { c with sp := v } | 5 => { c with bp := v } | 6 => { c with si := v } | 7 => { c with di := v }

def lo (w : Word) : Byte := w.setWidth 8
def hi (w : Word) : Byte := w.extractLsb' 8 8

def reg8 (c : Cpu) : Fin 8 → Byte
  | 0 => lo c.ax | 1 => lo c.cx | 2 => lo c.dx | 3 => lo c.bx
  | 4 => hi c.ax | 5 => hi c.cx | 6 => hi c.dx | 7 => hi c.bx

def setReg8 (c : Cpu) (r : Fin 8) (v : Byte) : Cpu :=
  match r with
  | 0 => { c with ax := hi c.ax ++ v } | 1 => { c with cx := hi c.cx ++ v }
  | 2 => { c with dx := hi c.dx ++ v } | 3 => { c with bx := hi c.bx ++ v }
  | 4 => { c with ax := v ++ lo c.ax } | 5 => { c with cx := v ++ lo c.cx }
  | 6 => { c with dx := v ++ lo c.dx } | 7 => { c with bx := v ++ lo c.bx }

def sreg (c : Cpu) : SReg → Word
  | .es => c.es | .cs => c.cs | .ss => c.ss | .ds => c.ds

def setSreg (c : Cpu) (s : SReg) (v : Word) : Cpu :=
  match s with
  | .es => { c with es := v } | .cs => { c with cs := v } | .ss => { c with ss := v } | .ds => { c with ds := v }

/-- Linear address of `seg:off`: 20 bits, wrapping. -/
def lin (seg off : Word) : Nat := (seg.toNat * 16 + off.toNat) % 2 ^ 20

def rd8 (c : Cpu) (seg off : Word) : Byte := c.mem.get (lin seg off)
/-- A word access wraps inside its 64 KB segment. -/
def rd16 (c : Cpu) (seg off : Word) : Word := c.rd8 seg (off + 1) ++ c.rd8 seg off

def wr8 (c : Cpu) (seg off : Word) (v : Byte) : Cpu := { c with mem := c.mem.set (lin seg off) v }
def wr16 (c : Cpu) (seg off : Word) (v : Word) : Cpu := (c.wr8 seg off (lo v)).wr8 seg (off + 1) (hi v)

def baseVal (c : Cpu) : Base → Word
  | .bxsi => c.bx + c.si | .bxdi => c.bx + c.di | .bpsi => c.bp + c.si | .bpdi => c.bp + c.di
  | .si => c.si | .di => c.di | .bp => c.bp | .bx => c.bx | .none => 0

/-- Default segment: SS for BP-based operands. -/
def baseSeg : Base → SReg
  | .bpsi | .bpdi | .bp => .ss
  | _ => .ds

def eff (c : Cpu) (b : Base) (disp : Word) : Word := c.baseVal b + disp
def segOf (c : Cpu) (seg : Option SReg) (b : Base) : Word := c.sreg (seg.getD (baseSeg b))

def rm16 (c : Cpu) : RM → Word
  | .reg r => c.reg16 r
  | .mem seg b d => c.rd16 (c.segOf seg b) (c.eff b d)

def rm8 (c : Cpu) : RM → Byte
  | .reg r => c.reg8 r
  | .mem seg b d => c.rd8 (c.segOf seg b) (c.eff b d)

def setRm16 (c : Cpu) (rm : RM) (v : Word) : Cpu :=
  match rm with
  | .reg r => c.setReg16 r v
  | .mem seg b d => c.wr16 (c.segOf seg b) (c.eff b d) v

def setRm8 (c : Cpu) (rm : RM) (v : Byte) : Cpu :=
  match rm with
  | .reg r => c.setReg8 r v
  | .mem seg b d => c.wr8 (c.segOf seg b) (c.eff b d) v

def push (c : Cpu) (v : Word) : Cpu :=
  let c := { c with sp := c.sp - 2 }
  c.wr16 c.ss c.sp v

def pop (c : Cpu) : Word × Cpu := (c.rd16 c.ss c.sp, { c with sp := c.sp + 2 })

end Cpu

/-! ## Arithmetic and flags -/

/-- Result of an ALU operation on `n`-bit words with carry-in `c`. -/
def aluRes {n : Nat} (op : AluOp) (l r : BitVec n) (c : Bool) : BitVec n :=
  match op with
  | .add => l + r
  | .adc => l + r + BitVec.ofNat n c.toNat
  | .sub | .cmp => l - r
  | .sbb => l - r - BitVec.ofNat n c.toNat
  | .or => l ||| r
  | .and => l &&& r
  | .xor => l ^^^ r

/-- Carry (unsigned overflow / borrow). -/
def aluCF {n : Nat} (op : AluOp) (l r : BitVec n) (c : Bool) : Bool :=
  match op with
  | .add => decide (2 ^ n ≤ l.toNat + r.toNat)
  | .adc => decide (2 ^ n ≤ l.toNat + r.toNat + c.toNat)
  | .sub | .cmp => decide (l.toNat < r.toNat)
  | .sbb => decide (l.toNat < r.toNat + c.toNat)
  | _ => false

/-- The value is not representable as a signed `n`-bit number. -/
def outOfRange (n : Nat) (x : Int) : Bool := decide (x < -2 ^ (n - 1)) || decide (2 ^ (n - 1) ≤ x)

/-- Signed overflow. -/
def aluOF {n : Nat} (op : AluOp) (l r : BitVec n) (c : Bool) : Bool :=
  match op with
  | .add => outOfRange n (l.toInt + r.toInt)
  | .adc => outOfRange n (l.toInt + r.toInt + c.toNat)
  | .sub | .cmp => outOfRange n (l.toInt - r.toInt)
  | .sbb => outOfRange n (l.toInt - r.toInt - c.toNat)
  | _ => false

/-- Does the operation read the carry flag? -/
def AluOp.usesCarry : AluOp → Bool
  | .adc | .sbb => true
  | _ => false

/-- The points on which 8086-compatible executions may differ. -/
structure Contract where
  /-- INC and DEC set ZF, SF and OF (otherwise these are left undefined). -/
  incDecFlags : Bool
  /-- Byte ADD, ADC and SBB set ZF. -/
  addByteZF : Bool
  /-- Shifts by a non-zero count set SF. -/
  shiftSF : Bool
  /-- SHL sets ZF. -/
  shlZF : Bool
  /-- A shift by CL = 0 leaves the flags alone. -/
  shiftZeroKeeps : Bool
  /-- NEG sets the flags. -/
  negFlags : Bool
  /-- REPE CMPSB / REPNE SCASB set SF and OF. -/
  cmpsSO : Bool
  /-- REPE CMPSB / REPNE SCASB with CX = 0 leave the flags alone. -/
  repZeroKeeps : Bool
  /-- What MUL (IMUL) leaves in DX. -/
  mulHi : Word → Word → Word
  imulHi : Word → Word → Word

/-- The real processor. -/
def Contract.real : Contract where
  incDecFlags := true
  addByteZF := true
  shiftSF := true
  shlZF := true
  shiftZeroKeeps := true
  negFlags := true
  cmpsSO := true
  repZeroKeeps := true
  mulHi a b := (a.setWidth 32 * b.setWidth 32).extractLsb' 16 16
  imulHi a b := (a.signExtend 32 * b.signExtend 32).extractLsb' 16 16

/-- The contract the simulator meets (see `Verif.Sim86`). -/
def Contract.sim : Contract where
  incDecFlags := false
  addByteZF := false
  shiftSF := false
  shlZF := false
  shiftZeroKeeps := false
  negFlags := false
  cmpsSO := false
  repZeroKeeps := false
  mulHi _ _ := 0
  imulHi _ _ := 0

/-- A flag that is only defined when the contract says so. -/
def Flag.of (known : Bool) (b : Bool) : Flag := if known then some b else none

/-- Outcome of one instruction. -/
inductive Out
  /-- The next state. -/
  | next (c : Cpu)
  /-- A software interrupt is taken; `c` is the state in front of the handler. -/
  | intr (n : Byte) (c : Cpu)
  /-- Divide error. -/
  | divErr (c : Cpu)
  /-- The manual leaves the effect undefined, or the bytes are not in the subset. -/
  | undef

namespace Cpu

/-- Set the flags of an ALU operation on `n`-bit operands. -/
def aluFlags {n : Nat} (K : Contract) (op : AluOp) (l r : BitVec n) (ci : Bool) (c : Cpu) : Cpu :=
  let zfKnown := K.addByteZF || n != 8 || !(op = .add || op = .adc || op = .sbb)
  { c with
    cf := some (aluCF op l r ci)
    of := some (aluOF op l r ci)
    sf := some (aluRes op l r ci).msb
    zf := Flag.of zfKnown (aluRes op l r ci == 0) }

/-- The carry-in of an operation, if the operation reads it and it is defined. -/
def carryIn (op : AluOp) (c : Cpu) : Option Bool :=
  if op.usesCarry then c.cf else some false

/-- ALU operation with the destination given as `RM`. -/
def alu (K : Contract) (op : AluOp) (w : Bool) (dst : RM) (l r : Word) (c : Cpu) : Out :=
  match carryIn op c with
  | none => .undef
  | some ci =>
    if w then
      let c' := aluFlags K op l r ci c
      .next (if op = .cmp then c' else c'.setRm16 dst (aluRes op l r ci))
    else
      let l := lo l
      let r := lo r
      let c' := aluFlags K op l r ci c
      .next (if op = .cmp then c' else c'.setRm8 dst (aluRes op l r ci))

/-- Read an operand of the given size (bytes zero-extended). -/
def rd (c : Cpu) (w : Bool) (rm : RM) : Word := if w then c.rm16 rm else (c.rm8 rm).setWidth 16

/-- The condition tested by `Jcc`. -/
def cond (c : Cpu) (cc : Fin 16) : Option Bool :=
  let base : Option Bool :=
    match cc.val / 2 with
    | 0 => c.of
    | 1 => c.cf
    | 2 => c.zf
    | 3 => do return (← c.cf) || (← c.zf)
    | 4 => c.sf
    | 5 => none
    | 6 => do return (← c.sf) != (← c.of)
    | _ => do return (← c.zf) || ((← c.sf) != (← c.of))
  base.map (fun b => if cc.val % 2 = 0 then b else !b)

/-- `n` iterations of MOVSB / MOVSW, ascending. -/
def movs (w : Bool) : Nat → Cpu → Cpu
  | 0, c => c
  | n + 1, c =>
    let c := if w then c.wr16 c.es c.di (c.rd16 c.ds c.si) else c.wr8 c.es c.di (c.rd8 c.ds c.si)
    let d : Word := if w then 2 else 1
    movs w n { c with si := c.si + d, di := c.di + d, cx := c.cx - 1 }

/-- `n` iterations of STOSB / STOSW, ascending. -/
def stosN (w : Bool) : Nat → Cpu → Cpu
  | 0, c => c
  | n + 1, c =>
    let c := if w then c.wr16 c.es c.di c.ax else c.wr8 c.es c.di (lo c.ax)
    stosN w n { c with di := c.di + (if w then 2 else 1) }

/-- Flags of a string comparison. -/
def cmpFlags (K : Contract) (l r : Byte) (c : Cpu) : Cpu :=
  { c with
    cf := some (aluCF .cmp l r false)
    zf := some (aluRes .cmp l r false == 0)
    sf := Flag.of K.cmpsSO (aluRes .cmp l r false).msb
    of := Flag.of K.cmpsSO (aluOF .cmp l r false) }

/-- Up to `n` iterations of CMPSB, stopping after the first difference. -/
def cmpsN (K : Contract) : Nat → Cpu → Cpu
  | 0, c => c
  | n + 1, c =>
    let l := c.rd8 c.ds c.si
    let r := c.rd8 c.es c.di
    let c := { cmpFlags K l r c with si := c.si + 1, di := c.di + 1, cx := c.cx - 1 }
    if l = r then cmpsN K n c else c

/-- Up to `n` iterations of SCASB, stopping after the first match. -/
def scasN (K : Contract) : Nat → Cpu → Cpu
  | 0, c => c
  | n + 1, c =>
    let l := lo c.ax
    let r := c.rd8 c.es c.di
    let c := { cmpFlags K l r c with di := c.di + 1, cx := c.cx - 1 }
    if l = r then c else scasN K n c

def noFlags (c : Cpu) : Cpu := { c with cf := none, zf := none, sf := none, of := none }

/-- Result and last bit shifted out, for a count of at least one. -/
def shiftRes (op : ShiftOp) (v : Word) (a : Nat) : Word × Bool :=
  match op with
  | .shl => (v <<< a, (v <<< (a - 1)).msb)
  | .shr => (v >>> a, (v >>> (a - 1)).getLsbD 0)
  | .sar => (v.sshiftRight a, (v.sshiftRight (a - 1)).getLsbD 0)

def shift (K : Contract) (op : ShiftOp) (a : Nat) (rm : RM) (c : Cpu) : Out :=
  if a = 0 then .next (if K.shiftZeroKeeps then c else noFlags c)
  else if 16 ≤ a then .undef
  else
    let (res, co) := shiftRes op (c.rm16 rm) a
    let c := c.setRm16 rm res
    .next { c with
      cf := some co
      zf := Flag.of (K.shlZF || op != .shl) (res == 0)
      sf := Flag.of K.shiftSF res.msb
      of := none }

def unary (K : Contract) (u : Un) (rm : RM) (c : Cpu) : Out :=
  let v := c.rm16 rm
  match u with
  | .not => .next (c.setRm16 rm (~~~v))
  | .neg =>
    let c := c.setRm16 rm (-v)
    .next (if K.negFlags then aluFlags K .sub 0 v false c else noFlags c)
  | .mul => .next (noFlags { c with ax := c.ax * v, dx := K.mulHi c.ax v })
  | .imul => .next (noFlags { c with ax := c.ax * v, dx := K.imulHi c.ax v })
  | .div =>
    let n := c.dx.toNat * 2 ^ 16 + c.ax.toNat
    if v.toNat = 0 ∨ 2 ^ 16 ≤ n / v.toNat then .divErr c
    else .next (noFlags { c with ax := BitVec.ofNat 16 (n / v.toNat), dx := BitVec.ofNat 16 (n % v.toNat) })
  | .idiv =>
    let n : Int := (c.dx ++ c.ax).toInt
    if v.toInt = 0 ∨ outOfRange 16 (Int.tdiv n v.toInt) then .divErr c
    else .next (noFlags { c with
      ax := BitVec.ofInt 16 (Int.tdiv n v.toInt), dx := BitVec.ofInt 16 (Int.tmod n v.toInt) })

/-- Execute an instruction; IP already points after it. -/
def exec (K : Contract) (i : Instr) (c : Cpu) : Out :=
  match i with
  | .aluRmReg op w dst src => alu K op w dst (c.rd w dst) (c.rd w (.reg src)) c
  | .aluRegRm op w dst src => alu K op w (.reg dst) (c.rd w (.reg dst)) (c.rd w src) c
  | .aluImm op w dst imm => alu K op w dst (c.rd w dst) imm c
  | .pushSeg s => .next (c.push (c.sreg s))
  | .popSeg s => let (v, c) := c.pop; .next (c.setSreg s v)
  | .incDec dec w rm =>
    if w then
      let v := c.rm16 rm
      let op := if dec then AluOp.sub else .add
      let c' := c.setRm16 rm (aluRes op v 1 false)
      .next { c' with
        zf := Flag.of K.incDecFlags (aluRes op v 1 false == 0)
        sf := Flag.of K.incDecFlags (aluRes op v 1 false).msb
        of := Flag.of K.incDecFlags (aluOF op v 1 false) }
    else
      let v := c.rm8 rm
      let op := if dec then AluOp.sub else .add
      let c' := c.setRm8 rm (aluRes op v 1 false)
      .next { c' with
        zf := Flag.of K.incDecFlags (aluRes op v 1 false == 0)
        sf := Flag.of K.incDecFlags (aluRes op v 1 false).msb
        of := Flag.of K.incDecFlags (aluOF op v 1 false) }
  | .push r => if r = 4 then .undef else .next (c.push (c.reg16 r))
  | .pop r => let (v, c) := c.pop; .next (c.setReg16 r v)
  | .jcc cc rel =>
    match c.cond cc with
    | none => .undef
    | some true => .next { c with ip := c.ip + rel }
    | some false => .next c
  | .xchgAx r => .next ((c.setReg16 0 (c.reg16 r)).setReg16 r c.ax)
  | .movRmReg w dst src =>
    .next (if w then c.setRm16 dst (c.reg16 src) else c.setRm8 dst (c.reg8 src))
  | .movRegRm w dst src =>
    .next (if w then c.setReg16 dst (c.rm16 src) else c.setReg8 dst (c.rm8 src))
  | .movImm w dst imm => .next (if w then c.setRm16 dst imm else c.setRm8 dst (lo imm))
  | .movRmSeg dst s => .next (c.setRm16 dst (c.sreg s))
  | .movSegRm s src => .next (c.setSreg s (c.rm16 src))
  | .lea r b d => .next (c.setReg16 r (c.eff b d))
  | .cbw => .next { c with ax := (lo c.ax).signExtend 16 }
  | .cwd => .next { c with dx := if c.ax.msb then -1 else 0 }
  | .movAccMem w seg off =>
    let s := c.sreg (seg.getD .ds)
    .next (if w then c.setReg16 0 (c.rd16 s off) else c.setReg8 0 (c.rd8 s off))
  | .movMemAcc w seg off =>
    let s := c.sreg (seg.getD .ds)
    .next (if w then c.wr16 s off c.ax else c.wr8 s off (lo c.ax))
  | .repMovs w => .next (movs w c.cx.toNat c)
  | .repeCmpsb =>
    if c.cx = 0 then .next (if K.repZeroKeeps then c else noFlags c) else .next (cmpsN K c.cx.toNat c)
  | .stos w => .next (stosN w 1 c)
  | .repStos w => .next { stosN w c.cx.toNat c with cx := 0 }
  | .lods w =>
    let c' := if w then c.setReg16 0 (c.rd16 c.ds c.si) else c.setReg8 0 (c.rd8 c.ds c.si)
    .next { c' with si := c.si + (if w then 2 else 1) }
  | .repneScasb =>
    if c.cx = 0 then .next (if K.repZeroKeeps then c else noFlags c) else .next (scasN K c.cx.toNat c)
  | .ret => let (v, c) := c.pop; .next { c with ip := v }
  | .int n => .intr n c
  | .shift op cnt rm =>
    shift K op (match cnt with | .one => 1 | .cl => (lo c.cx).toNat) rm c
  | .call rel => .next { c.push c.ip with ip := c.ip + rel }
  | .jmp rel => .next { c with ip := c.ip + rel }
  | .unary u rm => unary K u rm c
  | .callRm rm => .next { c.push c.ip with ip := c.rm16 rm }

/-- The longest instruction with prefixes has 7 bytes. -/
def window : Nat := 8

/-- The bytes at CS:IP. -/
def fetch (c : Cpu) : Nat → Word → List Byte
  | 0, _ => []
  | n + 1, off => c.rd8 c.cs off :: fetch c n (off + 1)

/-- Fetch, decode and execute one instruction. -/
def step (K : Contract) (c : Cpu) : Out :=
  match decode (c.fetch window c.ip) with
  | none => .undef
  | some (i, rest) => exec K i { c with ip := c.ip + BitVec.ofNat 16 (window - rest.length) }

end Cpu

end I86
