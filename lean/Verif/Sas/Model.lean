import Verif.Sas.Lexer
/-!
# The assembler, `/repo/sas.c:373-1693`

Everything but the file handling of `main` (`sas.c:1583-1590`, `1683-1692`): the input is a list of bytes, the output the
array `OutputBuf[0 .. OutputBufPos)`.  Signed overflow, shifts out of range and array accesses out of bounds are the outcome
`ub`.  Messages are not modelled; a message that would itself fail (`TokenText` of an odd token) is the same `fatal`.

Ghost state.  The fields whose names start with `g`, and `logRef`, are history variables: they record which uses of a label
were emitted and where labels were defined, so that theorems can speak about them.  No other field and no result ever
depends on them.
-/
namespace Sas
open I86 Text Prog

/-- `FIXUP_…`, `sas.c:373-377`. -/
inductive FixT | rel8 | rel16 | disp16
  deriving DecidableEq, Repr

/-- `struct Fixup`, `sas.c:379-383`; a pointer is an index into `Fixups`. -/
structure Fixup where
  ty : FixT := .rel8
  off : Nat := 0
  next : Option Nat := none

/-- `LABEL_…`, `sas.c:387-391`. -/
inductive LabT | none | equ | normal
  deriving DecidableEq, Repr

/-- `struct Label`, `sas.c:393-397`.  Ghost: `gInst` tells apart the successive labels that share one entry. -/
structure Label where
  ty : LabT := .none
  val : Int := 0
  fix : Option Nat := none
  gInst : Nat := 0

/-- Ghost: how a value was emitted. -/
inductive RefK | abs16 | abs8 | rel16 | rel8
  deriving DecidableEq, Repr

/-- Ghost: an emitted operand: its position in the image and its address, the labels used in it and the constant added, and
the label (if any) that had no address yet. -/
structure Ref where
  kind : RefK
  off : Nat
  va : Int
  labs : List Nat
  addend : Int
  pend : Option Nat

/-- The globals, `sas.c:384-445`. -/
structure S where
  lex : Lex
  fixups : Nat → Fixup
  nextFixup : Option Nat
  labels : Nat → Label
  out : Array Byte
  va : Int
  inBSS : Bool
  sizeOv : Nat
  gNext : Nat
  gDefs : List (Nat × Int)
  gRefs : List Ref
  gDropped : Bool

abbrev A := M S

/-- `OPTYPE_…`, `sas.c:432-436`. -/
inductive OpT | lit | reg | mem
  deriving DecidableEq, Repr

/-- `struct Operand`, `sas.c:438-443`; the fixup is the number of a label.  Ghost: the labels used and the constant part. -/
structure Operand where
  ty : OpT
  modrm : Byte := 0
  disp : Int := 0
  fixup : Option Nat := none
  gLabs : List Nat := []
  gAddend : Int := 0
  deriving DecidableEq

/-- The result of an `int` operation. -/
def ck (n : Int) : A Int := if inInt n then pure n else fail .ub

/-- The values of the EQU labels, as `TranslateIdToken` reads them. -/
def equOf (labels : Nat → Label) (i : Nat) : Option Int := if (labels i).ty = .equ then some (labels i).val else none

/-- `GetToken`, `sas.c:620-715`. -/
def getToken : A Unit := fun s =>
  match lexStep (equOf s.labels) s.lex with
  | .ok l => .ok () { s with lex := l }
  | .error e => .err e

/-- `TokenType`. -/
def tokTy : A Nat := fun s => .ok s.lex.tok.ty s

/-- `TokenVal`. -/
def curTok : A Tok := fun s => .ok s.lex.tok s

/-- `OutputByte`, `sas.c:470-476`. -/
def outputByte (b : Byte) : A Unit := do
  let s ← getS
  assertM !s.inBSS
  assertM (s.out.size < outputMax)
  let va ← ck (s.va + 1)
  modS fun s => { s with out := s.out.push b, va }

/-- `int` to `char`. -/
def toByte (n : Int) : Byte := BitVec.ofInt 8 n

/-- `OutputWord`, `sas.c:478-482`. -/
def outputWord (w : Int) : A Unit := do
  outputByte (toByte w)
  outputByte (toByte (w / 256))

/-- `NumFromString`, `sas.c:734-742`. -/
def numFromString : A Int := do
  let t ← curTok
  assertM (t.ty == tokString)
  if t.str.length = 0 ∨ t.str.length > 2 then fail .fatal
  else
    getToken
    pure ((t.str.getD 0 0).toNat + 256 * (t.str.getD 1 0).toNat)

/-- `ParsePrimary`, `sas.c:744-756`. -/
def parsePrimary : A Int := do
  let t ← curTok
  if t.ty = tokNumber then
    getToken
    pure t.num
  else if t.ty = tokString then numFromString
  else fail .fatal

/-- `IsUnaryOp`, `sas.c:758-761`. -/
def isUnaryOp (ty : Nat) : Bool := ty == tokPlus || ty == tokMinus || ty == tokTilde

/-- `-n`, `~n` and `n`, `sas.c:770-772`. -/
def unaryOp (op : Nat) (n : Int) : A Int :=
  if op = tokMinus then ck (-n) else if op = tokTilde then pure (-n - 1) else pure n

/-- `ParseUnary`, `sas.c:764-775`. -/
def parseUnary : Nat → A Int
  | 0 => fail .fuel
  | fuel + 1 => do
    let op ← tokTy
    if isUnaryOp op then
      getToken
      let n ← parseUnary fuel
      unaryOp op n
    else parsePrimary

/-- `OperatorPrecedence`, `sas.c:777-783`. -/
def precedence (ty : Nat) : Nat :=
  if ty = tokPlus ∨ ty = tokMinus then 4 else if ty = tokLsh then 5 else if ty = tokPipe then 10 else 100

/-- The operators of `ParseExpr`, `sas.c:803-810`.  A left shift is undefined for a negative left operand, a count outside
0..31, or a result out of range. -/
def binOp (op : Nat) (l r : Int) : A Int :=
  if op = tokPlus then ck (l + r)
  else if op = tokMinus then ck (l - r)
  else if op = tokPipe then pure (BitVec.ofInt 32 l ||| BitVec.ofInt 32 r).toInt
  else if op = tokLsh then if 0 ≤ l ∧ 0 ≤ r ∧ r < 32 then ck (l * 2 ^ r.toNat) else fail .ub
  else fail .fatal

mutual

/-- `ParseExpr`, `sas.c:785-813`. -/
def parseExpr : Nat → Int → Nat → A Int
  | 0, _, _ => fail .fuel
  | fuel + 1, lhs, outer => do
    let op ← tokTy
    if precedence op > outer then pure lhs
    else
      getToken
      let rhs ← parseUnary fuel
      let rhs ← parseInner fuel rhs (precedence op)
      let lhs ← binOp op lhs rhs
      parseExpr fuel lhs outer

/-- The inner loop of `ParseExpr`, `sas.c:796-801`. -/
def parseInner : Nat → Int → Nat → A Int
  | 0, _, _ => fail .fuel
  | fuel + 1, rhs, prec => do
    let la ← tokTy
    if precedence la ≥ prec then pure rhs
    else
      let rhs ← parseExpr fuel rhs (precedence la)
      parseInner fuel rhs prec

end

/-- Enough turns for any loop over the tokens left. -/
def tokFuel : A Nat := fun s => .ok (4 * s.lex.inp.length + 8) s

/-- `ParseNumber`, `sas.c:815-818`. -/
def parseNumber : A Int := do
  let f ← tokFuel
  let n ← parseUnary f
  parseExpr f n 15

/-- `Expect`, `sas.c:820-827`. -/
def expect (tok : Nat) : A Unit := do
  let ty ← tokTy
  if ty ≠ tok then fail .fatal else getToken

/-- `Accept`, `sas.c:829-836`. -/
def accept (tok : Nat) : A Bool := do
  let ty ← tokTy
  if ty = tok then
    getToken
    pure true
  else pure false

/-- Replace a label. -/
def setLabel (i : Nat) (l : Label) : A Unit := modS fun s => { s with labels := upd s.labels i l }

/-- `ReferenceLabel`, `sas.c:838-851`: the number of the label. -/
def referenceLabel : A Nat := do
  let ty ← tokTy
  assertM (ty ≥ tokUserId)
  let i := ty - tokUserId
  let s ← getS
  if (s.labels i).ty = .none then
    setLabel i { ty := .normal, val := -1, fix := none, gInst := s.gNext }
    modS fun s => { s with gNext := s.gNext + 1 }
  else assertM ((s.labels i).ty == .normal)
  getToken
  pure i

/-- `IsShort`, `sas.c:853-856`. -/
def isShort (v : Int) : Bool := v % 65536 == (toByte v).toInt % 65536

/-- `TranslateMemMod`, `sas.c:858-882`; -1 is 0xFF. -/
def translateMemMod (ty : Nat) (start : Byte) : A Byte :=
  if ty = tokBx ∧ start = 0xFF then pure 7
  else if ty = tokBx ∧ start = 4 then pure 0
  else if ty = tokBp ∧ start = 0xFF then pure 6
  else if ty = tokSi ∧ start = 0xFF then pure 4
  else if ty = tokDi ∧ start = 0xFF then pure 5
  else fail .fatal

/-- One item inside the brackets, `sas.c:904-923`. -/
def memItem (neg : Bool) (o : Operand) : A Operand := do
  let t ← curTok
  if t.ty = tokBx ∨ t.ty = tokBp ∨ t.ty = tokSi ∨ t.ty = tokDi then
    let m ← translateMemMod t.ty o.modrm
    getToken
    pure { o with modrm := m }
  else if t.ty = tokNumber then
    let d ← ck (if neg then o.disp - t.num else o.disp + t.num)
    getToken
    pure { o with disp := d, gAddend := if neg then o.gAddend - t.num else o.gAddend + t.num }
  else if t.ty ≥ tokUserId then
    assertM (o.fixup == none)
    let i ← referenceLabel
    let s ← getS
    assertM ((s.labels i).ty == .normal)
    if (s.labels i).val = -1 then pure { o with fixup := some i, gLabs := (s.labels i).gInst :: o.gLabs }
    else
      let d ← ck (o.disp + (s.labels i).val)
      pure { o with disp := d, gLabs := (s.labels i).gInst :: o.gLabs }
  else fail .fatal

/-- The loop over the items inside the brackets, `sas.c:897-931`. -/
def memItems : Nat → Bool → Operand → A Operand
  | 0, _, _ => fail .fuel
  | fuel + 1, neg, o => do
    let ty ← tokTy
    if tokEs ≤ ty ∧ ty ≤ tokDs then
      outputByte (0x26 ||| BitVec.ofNat 8 (ty - tokEs))
      getToken
      expect tokColon
      memItems fuel neg o
    else
      let o ← memItem neg o
      let minus ← accept tokMinus
      if minus then memItems fuel true o
      else
        let plus ← accept tokPlus
        if plus then memItems fuel false o else pure o

/-- The mode bits, `sas.c:934-946`. -/
def finishMem (o : Operand) : Operand :=
  let m := if o.modrm = 6 ∧ o.disp = 0 then o.modrm ||| 0x40 else o.modrm
  if m = 0xFF then { o with modrm := 6 }
  else if o.fixup ≠ none then { o with modrm := m ||| 0x80 }
  else if o.disp ≠ 0 then { o with modrm := if isShort o.disp then m ||| 0x40 else m ||| 0x80 }
  else { o with modrm := m }

/-- The part of `ParseOperand` from `DoMem` on, `sas.c:894-946`. -/
def parseMem : A Operand := do
  let f ← tokFuel
  let o ← memItems f false { ty := .mem, modrm := 0xFF }
  expect tokRbracket
  pure (finishMem o)

/-- `ParseOperand`, `sas.c:884-967`. -/
def parseOperand : A Operand := do
  let t ← curTok
  if t.ty = tokNumber ∨ t.ty = tokString ∨ isUnaryOp t.ty then
    let n ← parseNumber
    pure { ty := .lit, disp := n, gAddend := n }
  else if t.ty = tokLbracket then
    getToken
    parseMem
  else if t.ty = tokByte ∨ t.ty = tokWord then
    modS fun s => { s with sizeOv := if t.ty = tokByte then 1 else 2 }
    getToken
    expect tokLbracket
    parseMem
  else if tokAl ≤ t.ty ∧ t.ty ≤ tokDs then
    getToken
    pure { ty := .reg, disp := t.ty, gAddend := t.ty }
  else if t.ty ≥ tokUserId then
    let i ← referenceLabel
    let s ← getS
    assertM ((s.labels i).ty == .normal)
    if (s.labels i).val = -1 then pure { ty := .lit, fixup := some i, gLabs := [(s.labels i).gInst] }
    else pure { ty := .lit, disp := (s.labels i).val, gLabs := [(s.labels i).gInst] }
  else fail .fatal

/-- `Parse2Operands`, `sas.c:969-974`. -/
def parse2Operands : A (Operand × Operand) := do
  let o1 ← parseOperand
  expect tokComma
  let o2 ← parseOperand
  pure (o1, o2)

/-- Ghost: record that operand `o` is emitted here. -/
def logRef (k : RefK) (o : Operand) : A Unit := modS fun s => { s with
  gRefs := { kind := k, off := s.out.size, va := s.va, labs := o.gLabs, addend := o.gAddend,
             pend := o.fixup.map fun i => (s.labels i).gInst } :: s.gRefs }

/-- Output the bytes of a string, `sas.c:989-990`. -/
def outputBytes : List Byte → A Unit
  | [] => pure ()
  | b :: l => do
    outputByte b
    outputBytes l

/-- One item of DB or DW, `sas.c:980-1004`; the value is the length added to `n`. -/
def dxItem (size : Nat) : A Nat := do
  let t ← curTok
  if t.ty = tokNumber then
    if size = 1 then outputByte (toByte t.num) else outputWord t.num
    getToken
    pure 0
  else if t.ty = tokString then
    outputBytes t.str
    getToken
    pure t.str.length
  else if t.ty ≥ tokUserId then
    assertM (size == 2)
    let i ← referenceLabel
    let s ← getS
    assertM ((s.labels i).ty == .normal)
    if (s.labels i).val ≠ -1 then
      logRef .abs16 { ty := .lit, disp := (s.labels i).val, gLabs := [(s.labels i).gInst] }
      outputWord (s.labels i).val
    else outputWord 0
    pure 0
  else fail .fatal

/-- The loop of `HandleDx`, `sas.c:979-1005`. -/
def dxItems (size : Nat) : Nat → Nat → A Nat
  | 0, _ => fail .fuel
  | fuel + 1, n => do
    let k ← dxItem size
    let more ← accept tokComma
    if more then dxItems size fuel (n + k) else pure (n + k)

/-- `HandleDx`, `sas.c:976-1008`. -/
def handleDx (size : Nat) : A Unit := do
  let f ← tokFuel
  let n ← dxItems size f 0
  if size = 2 ∧ n % 2 = 1 then outputByte 0

/-- `HandleResx`, `sas.c:1010-1014`. -/
def handleResx (size : Int) : A Unit := do
  modS fun s => { s with inBSS := true }
  let n ← parseNumber
  let d ← ck (size * n)
  let s ← getS
  let va ← ck (s.va + d)
  modS fun s => { s with va }

/-- `HandleDirective`, `sas.c:1016-1043`. -/
def handleDirective (dir : Nat) : A Unit :=
  if dir = tokCpu then do
    let n ← parseNumber
    if n ≠ 8086 then fail .fatal
  else if dir = tokDb then handleDx 1
  else if dir = tokDw then handleDx 2
  else if dir = tokOrg then do
    let n ← parseNumber
    modS fun s => { s with va := n }
  else if dir = tokResb then handleResx 1
  else if dir = tokResw then handleResx 2
  else fail .fatal

/-- `AddFixupHere`, `sas.c:1045-1054`. -/
def addFixupHere (i : Nat) (ty : FixT) : A Unit := do
  let s ← getS
  match s.nextFixup with
  | none => fail .assertFail
  | some f =>
    modS fun s => { s with
      nextFixup := (s.fixups f).next
      fixups := upd s.fixups f { ty, off := s.out.size, next := (s.labels i).fix }
      labels := upd s.labels i { s.labels i with fix := some f } }

/-- Add a fixup for an operand with an unknown label. -/
def fixOp (o : Operand) (ty : FixT) : A Unit :=
  match o.fixup with
  | some i => addFixupHere i ty
  | none => pure ()

/-- `OutputImm8`, `sas.c:1056-1060`. -/
def outputImm8 (o : Operand) : A Unit := do
  assertM (o.fixup == none)
  outputByte (toByte o.disp)

/-- `OutputImm16`, `sas.c:1062-1068`. -/
def outputImm16 (o : Operand) : A Unit := do
  fixOp o .disp16
  logRef .abs16 o
  outputWord o.disp

/-- `OutputImm`, `sas.c:1070-1077`. -/
def outputImm (o : Operand) (w : Bool) : A Unit := if w then outputImm16 o else outputImm8 o

/-- `OutputModRM`, `sas.c:1079-1091`; the register number is below 8 in every call. -/
def outputModRM (o : Operand) (r : Byte) : A Unit := do
  assertM (o.ty == .mem)
  outputByte (o.modrm ||| r <<< 3)
  if o.modrm = 6 ∨ o.modrm &&& 0xc0 = 0x80 then
    fixOp o .disp16
    logRef .abs16 o
    outputWord o.disp
  else if o.modrm &&& 0xc0 = 0x40 then
    logRef .abs8 o
    outputByte (toByte o.disp)

/-- A truth value as a bit. -/
def bit (b : Bool) : Byte := if b then 1 else 0

/-- `Disp & 7` of a register operand. -/
def regBits (o : Operand) : Byte := toByte o.disp &&& 7

/-- `Disp >= TOK_AX`. -/
def isW (o : Operand) : Bool := o.disp ≥ (tokAx : Int)

/-- `Disp >= TOK_ES`. -/
def isSeg (o : Operand) : Bool := o.disp ≥ (tokEs : Int)

/-- `OutputMR`, `sas.c:1093-1098`. -/
def outputMR (inst : Byte) (l r : Operand) : A Unit := do
  assertM (l.ty == .mem && r.ty == .reg)
  outputByte (inst ||| bit (isW r && !isSeg r))
  outputModRM l (regBits r)

/-- `OutputMImm`, `sas.c:1100-1112`. -/
def outputMImm (inst : Byte) (r : Byte) (m imm : Operand) : A Unit := do
  assertM (m.ty == .mem && imm.ty == .lit)
  let s ← getS
  assertM (s.sizeOv != 0)
  let w := s.sizeOv != 1
  let short := w && inst == 0x80 && imm.fixup == none && isShort imm.disp
  let inst := if short then inst ||| 3 else inst
  let w := w && !short
  outputByte (inst ||| bit w)
  outputModRM m r
  if short then logRef .abs8 imm
  outputImm imm w

/-- `HandleMOV`, `sas.c:1114-1158`. -/
def handleMOV : A Unit := do
  let (o1, o2) ← parse2Operands
  match o1.ty with
  | .reg =>
    match o2.ty with
    | .reg =>
      if !isSeg o1 then
        outputByte (if !isSeg o2 then 0x88 ||| bit (isW o1) else 0x8c)
        outputByte (0xC0 ||| (regBits o1 ||| regBits o2 <<< 3))
      else
        outputByte 0x8e
        outputByte (0xC0 ||| (regBits o2 ||| regBits o1 <<< 3))
    | .lit =>
      outputByte (toByte (0xB0 + o1.disp - tokAl))
      outputImm o2 (isW o1)
    | .mem =>
      if o2.modrm = 6 ∧ (o1.disp = tokAl ∨ o1.disp = tokAx) then
        outputByte (0xA0 ||| bit (o1.disp == tokAx))
        outputImm16 o2
      else outputMR (if isSeg o1 then 0x8E else 0x8A) o2 o1
  | .mem =>
    match o2.ty with
    | .reg =>
      if o1.modrm = 6 ∧ (o2.disp = tokAl ∨ o2.disp = tokAx) then
        outputByte (0xA2 ||| bit (o2.disp == tokAx))
        outputImm16 o1
      else outputMR (if isSeg o2 then 0x8C else 0x88) o1 o2
    | .lit => outputMImm 0xC6 0 o1 o2
    | .mem => fail .assertFail
  | .lit => fail .fatal

/-- `HandleALU`, `sas.c:1160-1199`. -/
def handleALU (base : Byte) : A Unit := do
  let (o1, o2) ← parse2Operands
  match o1.ty with
  | .reg =>
    match o2.ty with
    | .reg =>
      outputByte (base ||| bit (isW o1))
      outputByte (0xC0 ||| regBits o2 <<< 3 ||| regBits o1)
    | .lit =>
      if o1.disp = tokAl then
        outputByte (base + 4)
        outputImm8 o2
      else if o1.disp = tokAx then
        outputByte (base + 5)
        outputImm16 o2
      else
        let short := isW o1 && o2.fixup == none && isShort o2.disp
        outputByte ((0x80 ||| bit (isW o1)) ||| (if short then 2 else 0))
        outputByte (0xC0 ||| regBits o1 ||| base)
        if short then logRef .abs8 o2
        outputImm o2 (isW o1 && !short)
    | .mem => outputMR (base + 2) o2 o1
  | .mem =>
    match o2.ty with
    | .reg => outputMR base o1 o2
    | .lit => outputMImm 0x80 (base >>> 3) o1 o2
    | .mem => fail .assertFail
  | .lit => fail .fatal

/-- `HandleROT`, `sas.c:1201-1214`. -/
def handleROT (r : Byte) : A Unit := do
  let (o1, o2) ← parse2Operands
  assertM (o1.ty == .reg)
  if o2.ty = .reg then assertM (o2.disp == tokCl)
  outputByte (0xD0 ||| bit (isW o1) ||| (if o2.ty = .reg then 2 else 0))
  outputByte (0xC0 ||| r <<< 3 ||| regBits o1)

/-- `Op->Disp-(VirtAddress+k)`. -/
def relDisp (o : Operand) (k : Int) : A Int := do
  let s ← getS
  let n ← ck (s.va + k)
  ck (o.disp - n)

/-- `HandleRel8`, `sas.c:1216-1221`. -/
def handleRel8 (o : Operand) : A Unit := do
  fixOp o .rel8
  logRef .rel8 o
  let d ← relDisp o 1
  outputByte (toByte d)

/-- `HandleRel16`, `sas.c:1223-1228`. -/
def handleRel16 (o : Operand) : A Unit := do
  fixOp o .rel16
  logRef .rel16 o
  let d ← relDisp o 2
  outputWord d

/-- `HandleCALL`, `sas.c:1230-1242`. -/
def handleCALL : A Unit := do
  let o ← parseOperand
  if o.ty = .reg then
    outputByte 0xFF
    outputByte (0xC0 ||| 0x10 ||| regBits o)
  else
    assertM (o.ty == .lit)
    outputByte 0xE8
    handleRel16 o

/-- `if (Accept(TOK_SHORT)) SizeOverride = 1;`. -/
def acceptShort : A Unit := do
  let b ← accept tokShort
  if b then modS fun s => { s with sizeOv := 1 }

/-- `SizeOverride == 1 || (!op.Fixup && IsShort(op.Disp - (VirtAddress+2)))`, `sas.c:1251`. -/
def jmpShort (o : Operand) : A Bool := do
  let s ← getS
  if s.sizeOv = 1 then pure true
  else if o.fixup ≠ none then pure false
  else
    let d ← relDisp o 2
    pure (isShort d)

/-- `HandleJMP`, `sas.c:1244-1258`. -/
def handleJMP : A Unit := do
  acceptShort
  let o ← parseOperand
  assertM (o.ty == .lit)
  let short ← jmpShort o
  if short then
    outputByte 0xEB
    handleRel8 o
  else
    outputByte 0xE9
    handleRel16 o

/-- `HandleJCC`, `sas.c:1260-1274`.  With a fixup `Disp` is 0, so both branches output `Disp-(VirtAddress+1)`. -/
def handleJCC (cc : Byte) : A Unit := do
  acceptShort
  let o ← parseOperand
  assertM (o.ty == .lit)
  outputByte (0x70 ||| cc)
  match o.fixup with
  | some i =>
    addFixupHere i .rel8
    logRef .rel8 o
    let d ← relDisp { o with disp := 0 } 1
    outputByte (toByte d)
  | none =>
    logRef .rel8 o
    let d ← relDisp o 1
    outputByte (toByte d)

/-- `HandleIncDec`, `sas.c:1276-1293`. -/
def handleIncDec (dec : Byte) : A Unit := do
  let o ← parseOperand
  if o.ty = .reg then
    if isW o then outputByte (0x40 ||| dec <<< 3 ||| regBits o)
    else
      outputByte 0xFE
      outputByte (0xC0 ||| dec <<< 3 ||| regBits o)
  else
    let s ← getS
    assertM (o.ty == .mem && s.sizeOv != 0)
    outputByte (0xFE ||| BitVec.ofNat 8 (s.sizeOv - 1))
    outputModRM o dec

/-- `HandlePUSH`, `sas.c:1295-1311`. -/
def handlePUSH : A Unit := do
  let o ← parseOperand
  if o.ty = .reg then
    if isSeg o then outputByte (0x06 ||| toByte (o.disp - tokEs) <<< 3)
    else
      assertM (isW o)
      outputByte (0x50 ||| toByte (o.disp - tokAx))
  else
    let s ← getS
    assertM (o.ty == .mem && s.sizeOv == 2)
    outputByte 0xFF
    outputModRM o 6

/-- `HandlePOP`, `sas.c:1313-1324`. -/
def handlePOP : A Unit := do
  let o ← parseOperand
  assertM (o.ty == .reg)
  if isSeg o then outputByte (0x07 ||| toByte (o.disp - tokEs) <<< 3)
  else
    assertM (isW o)
    outputByte (0x58 ||| toByte (o.disp - tokAx))

/-- `HandleINT`, `sas.c:1326-1332`. -/
def handleINT : A Unit := do
  let n ← parseNumber
  assertM (0 ≤ n && n < 256)
  outputByte 0xCD
  outputByte (toByte n)

/-- `HandleTEST`, `sas.c:1334-1356`. -/
def handleTEST : A Unit := do
  let (o1, o2) ← parse2Operands
  if o1.ty = .reg then
    assertM (o2.ty == .lit)
    if o1.disp = tokAl ∨ o1.disp = tokAx then outputByte (0xA8 ||| bit (isW o1))
    else
      outputByte (0xF6 ||| bit (isW o1))
      outputByte (0xC0 ||| regBits o1)
    outputImm o2 (isW o1)
  else
    assertM (o1.ty == .mem)
    assertM (o2.ty == .lit)
    let s ← getS
    assertM (s.sizeOv != 0)
    outputByte (0xF6 ||| BitVec.ofNat 8 (s.sizeOv - 1))
    outputModRM o1 0
    outputImm o2 (s.sizeOv - 1 != 0)

/-- `HandleXCHG`, `sas.c:1358-1375`. -/
def handleXCHG : A Unit := do
  let (o1, o2) ← parse2Operands
  if o1.ty = .reg then
    if o2.ty = .reg then
      assertM (o1.disp == tokAx)
      outputByte (0x90 ||| regBits o2)
    else
      assertM (o2.ty == .mem)
      outputByte (0x86 ||| bit (isW o1))
      outputModRM o2 (regBits o1)
  else fail .fatal

/-- `HandleMulDiv` and `HandleNotNeg`, `sas.c:1377-1395`. -/
def handleMulDiv (r : Byte) : A Unit := do
  let o ← parseOperand
  assertM (o.ty == .reg)
  outputByte (0xF6 ||| bit (isW o))
  outputByte (0xC0 ||| r <<< 3 ||| regBits o)

/-- `HandleLEA`, `sas.c:1397-1404`. -/
def handleLEA : A Unit := do
  let (o1, o2) ← parse2Operands
  assertM (o1.ty == .reg)
  assertM (o2.ty == .mem)
  outputMR 0x8D o2 o1

/-- `HandleInstruction`, `sas.c:1406-1552`. -/
def handleInstruction (inst : Nat) : A Unit :=
  match inst with
  | 286 => handleALU 0x10
  | 287 => handleALU 0x00
  | 288 => handleALU 0x20
  | 289 => handleCALL
  | 290 => outputByte 0x98
  | 291 => outputByte 0xF8
  | 292 => outputByte 0xFA
  | 293 => handleALU 0x38
  | 294 => outputByte 0xA6
  | 295 => outputByte 0x99
  | 296 => handleIncDec 1
  | 297 => handleMulDiv 6
  | 298 => handleMulDiv 7
  | 299 => handleMulDiv 5
  | 300 => handleIncDec 0
  | 301 => handleINT
  | 302 => handleJMP
  | 303 => handleLEA
  | 304 => outputByte 0xAC
  | 305 => handleMOV
  | 306 => outputByte 0xA4
  | 307 => handleMulDiv 4
  | 308 => handleMulDiv 3
  | 309 => handleMulDiv 2
  | 310 => handleALU 0x08
  | 311 => handlePOP
  | 312 => handlePUSH
  | 313 => outputByte 0xF3
  | 314 => outputByte 0xC3
  | 315 => handleROT 7
  | 316 => handleALU 0x18
  | 317 => handleROT 4
  | 318 => handleROT 5
  | 319 => outputByte 0xF9
  | 320 => outputByte 0xFB
  | 321 => outputByte 0xAA
  | 322 => outputByte 0xAB
  | 323 => handleALU 0x28
  | 324 => handleTEST
  | 325 => handleXCHG
  | 326 => handleALU 0x30
  | _ => if tokJo ≤ inst ∧ inst < tokJo + 16 then handleJCC (BitVec.ofNat 8 (inst - tokJo)) else fail .fatal

/-- `IdText(TokenType)[0] == '.'` for user label `i`. -/
def isLocal (ids : IdTab) (i : Nat) : Bool := (ids.names.getD (i + (tokUserId - tokId)) []).headD 0 == chr '.'

/-- `OutputBuf[k]`. -/
def byteAt (out : Array Byte) (k : Nat) : Byte := out.getD k 0

/-- Apply one fixup, `sas.c:1631-1643`. -/
def applyFixup (va : Int) (f : Fixup) (out : Array Byte) : Except Err (Array Byte) :=
  match f.ty with
  | .rel8 =>
    if f.off < out.size then
      if inInt ((byteAt out f.off).toInt + va) then .ok (out.setIfInBounds f.off (byteAt out f.off + toByte va)) else .error .ub
    else .error .ub
  | _ =>
    if f.off + 1 < out.size then
      let v := va + ((byteAt out f.off).toNat + 256 * (byteAt out (f.off + 1)).toNat : Nat)
      if inInt v then .ok ((out.setIfInBounds f.off (toByte v)).setIfInBounds (f.off + 1) (toByte (v / 256))) else .error .ub
    else .error .ub

/-- The loop over the fixups of a label, `sas.c:1630-1646`: the output and the last node. -/
def applyFixups (va : Int) (fixups : Nat → Fixup) : Nat → Nat → Array Byte → Except Err (Array Byte × Nat)
  | 0, _, _ => .error .fuel
  | fuel + 1, f, out =>
    match applyFixup va (fixups f) out with
    | .error e => .error e
    | .ok out =>
      match (fixups f).next with
      | none => .ok (out, f)
      | some g => applyFixups va fixups fuel g out

/-- Resolve the fixups of label `i` and free their nodes, `sas.c:1626-1649`. -/
def resolve (i : Nat) : A Unit := fun s =>
  if (s.labels i).val ≠ -1 then .err .assertFail
  else
    match (s.labels i).fix with
    | none => .ok () s
    | some f =>
      match applyFixups s.va s.fixups (fixupMax + 1) f s.out with
      | .error e => .err e
      | .ok (out, last) => .ok () { s with
          out, fixups := upd s.fixups last { s.fixups last with next := s.nextFixup }, nextFixup := some f }

/-- Retire the local labels, `sas.c:1653-1658`. -/
def retire (s : S) : S := { s with
  labels := fun i =>
    if i < s.lex.ids.names.length - (tokUserId - tokId) ∧ (s.labels i).ty ≠ .none ∧ isLocal s.lex.ids i
    then { s.labels i with ty := .none } else s.labels i
  gDropped := s.gDropped || (List.range (s.lex.ids.names.length - (tokUserId - tokId))).any fun i =>
    (s.labels i).ty == .normal && isLocal s.lex.ids i && (s.labels i).val == -1 && (s.labels i).fix != none }

/-- The definition of label `i`, `sas.c:1622-1659`. -/
def defineLabel (i : Nat) (global : Bool) : A Unit := do
  let s ← getS
  if (s.labels i).ty = .none then
    setLabel i { s.labels i with ty := .normal, fix := none, gInst := s.gNext }
    modS fun s => { s with gNext := s.gNext + 1 }
  else resolve i
  modS fun s => { s with
    labels := upd s.labels i { s.labels i with val := s.va }
    gDefs := ((s.labels i).gInst, s.va) :: s.gDefs }
  if global then modS retire

/-- The definition of an EQU constant, `sas.c:1662-1664`. -/
def defineEqu (i : Nat) : A Unit := do
  let s ← getS
  assertM ((s.labels i).ty == .none)
  setLabel i { s.labels i with ty := .equ }
  let n ← parseNumber
  modS fun s => { s with labels := upd s.labels i { s.labels i with val := n } }

/-- One turn of the main loop, `sas.c:1617-1680`. -/
def step : A Unit := do
  let ty ← tokTy
  if ty ≥ tokUserId then
    let i := ty - tokUserId
    let s ← getS
    let global := !isLocal s.lex.ids i
    getToken
    let colon ← accept tokColon
    if colon then defineLabel i global
    else
      let equ ← accept tokEqu
      if equ then defineEqu i else fail .fatal
  else if ty < tokDirective then fail .fatal
  else
    getToken
    modS fun s => { s with sizeOv := 0 }
    if ty < tokInst then handleDirective ty else handleInstruction ty

/-- The main loop, `sas.c:1616-1681`. -/
def loop : Nat → A Unit
  | 0 => fail .fuel
  | fuel + 1 => do
    let ty ← tokTy
    if ty = tokEof then pure ()
    else
      step
      loop fuel

/-- The state before the first token, `sas.c:1592-1614`. -/
def init (ids : IdTab) (inp : List Byte) : S where
  lex := { inp, ids, tok := { ty := 0 } }
  fixups := fun i => { next := if i < fixupMax - 1 then some (i + 1) else none }
  nextFixup := some 0
  labels := fun _ => {}
  out := #[]
  va := 0
  inBSS := false
  sizeOv := 0
  gNext := 0
  gDefs := []
  gRefs := []
  gDropped := false

/-- The assembly of a file, `sas.c:1592-1681`: the final state. -/
def run (inp : List Byte) : Res S Unit :=
  match addAll emptyTab builtins with
  | .error e => .err e
  | .ok ids => (do getToken; loop (4 * inp.length + 8)) (init ids inp)

/-- The bytes written by `sas.c:1691`. -/
def assemble (inp : List Byte) : Except Err (Array Byte) :=
  match run inp with
  | .ok _ s => .ok s.out
  | .err e => .error e

end Sas
