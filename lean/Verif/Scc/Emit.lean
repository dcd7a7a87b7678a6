import Verif.Scc.Lexer
/-!
# Model of the compiler `scc.c`: output of code, labels and fixups

`scc.c:933-1413`.  See `Verif/Scc/Lexer.lean` for the simplifications.
-/
namespace Scc
open Prog Text

/-! ## Constants, `scc.c:937-997` -/

abbrev jC : Nat := 2
abbrev jNC : Nat := 3
abbrev jZ : Nat := 4
abbrev jNZ : Nat := 5
abbrev jNA : Nat := 6
abbrev jA : Nat := 7
abbrev jL : Nat := 12
abbrev jNL : Nat := 13
abbrev jNG : Nat := 14
abbrev jG : Nat := 15

abbrev rAX : Nat := 0
abbrev rCX : Nat := 1
abbrev rDX : Nat := 2
abbrev rBX : Nat := 3
abbrev rSP : Nat := 4
abbrev rBP : Nat := 5
abbrev rSI : Nat := 6
abbrev rDI : Nat := 7

/-- A byte of an instruction. -/
def nb (n : Nat) : Byte := BitVec.ofNat 8 n

/-- The low and the high byte of `w & 0xFFFF`. -/
def lo (w : Int) : Byte := byteOf w
def hi (w : Int) : Byte := byteOf (w >>> (8 : Nat))

/-- `v == (signed char)v`. -/
def fits8 (v : Int) : Bool := (byteOf v).toInt == v

/-! ## Bytes, `scc.c:1001-1038, 1241-1262, 1378-1413` -/

/-- The part of `Output1Byte` etc. after the checks, `scc.c:1006, 1014-1016`. -/
def raw : List Byte → A Unit
  | [] => pure ()
  | b :: bs => do
    let s ← getS
    ubUnless (codeStart ≤ s.code ∧ s.code - codeStart < outputMax)
    modS fun s => { s with out := s.out.set (s.code - codeStart) b, code := s.code + 1 }
    raw bs

/-- `Output1Byte`, `Output2Bytes`, `Output3Bytes`, `OutputWord` while `Pending` is 0. -/
def outA (bs : List Byte) : A Unit := do
  let s ← getS
  if s.dead then pure () else raw bs

/-- `EmitAddRegConst`, `scc.c:1241-1262`, with the function that writes the instructions as a parameter. -/
def addRegConstWith (out : List Byte → A Unit) (r : Nat) (amm : Int) : A Unit := do
  if amm = 0 then pure ()
  else
    ubUnless (decide (-(2 ^ 31) < amm))
    let op := if amm < 0 then r + 0x28 else r
    let n := amm.natAbs
    if n ≤ 2 then
      let i := (op &&& 15) ||| 0x40
      out [nb i]
      if n = 2 then out [nb i] else pure ()
    else if n < 128 then out [0x83, nb (0xC0 ||| op), nb n]
    else
      if r = 0 then out [nb (op ||| 5)] else out [0x81, nb (0xC0 ||| op)]
      out [lo n, hi n]

/-- `FlushSpAdj`, `scc.c:1378-1388`. -/
def flushSpAdj : A Unit := do
  let s ← getS
  if s.spAdj = 0 then pure ()
  else
    modS fun s => { s with spAdj := 0, push := false }
    addRegConstWith outA rSP s.spAdj
    modS fun t => { t with push := s.push }

/-- The check for the size of the output in `EmitChecks`, `scc.c:1411`. -/
def checkSize : A Unit := do
  let s ← getS
  failIf (decide (outputMax + codeStart < s.code))

/-- `Output1Byte` etc. while the bit `PENDING_PUSHAX` is clear. -/
def outB (bs : List Byte) : A Unit := do
  let s ← getS
  if s.dead then pure ()
  else if s.spAdj = 0 then raw bs
  else
    flushSpAdj
    checkSize
    raw bs

/-- `FlushPushAx`, `scc.c:1390-1401`. -/
def flushPushAx : A Unit := do
  let s ← getS
  if s.push then
    modS fun s => { s with push := false }
    if s.regUse then
      outB [0x53]
      modS fun s => { s with localOffset := s.localOffset - 2 }
    else pure ()
    outB [0x93]
    modS fun s => { s with regUse := true }
  else pure ()

/-- `EmitChecks`, `scc.c:1403-1413`. -/
def emitChecks : A Bool := do
  let s ← getS
  if s.dead then pure true
  else
    flushSpAdj
    flushPushAx
    checkSize
    pure false

/-- `Output1Byte`, `Output2Bytes`, `Output3Bytes`, `OutputWord`, `scc.c:1001-1038`. -/
def output (bs : List Byte) : A Unit := do
  let s ← getS
  if s.dead ∨ s.spAdj ≠ 0 ∨ s.push then
    let b ← emitChecks
    if b then pure () else raw bs
  else raw bs

def outputWord (w : Int) : A Unit := output [lo w, hi w]

/-! ## Labels, `scc.c:1040-1180` -/

/-- `MakeLabel`, `scc.c:1040-1047`. -/
def makeLabel : A Nat := do
  let s ← getS
  failIf (s.labelCount == labelMax)
  modS fun t => { t with labels := t.labels.set s.labelCount ⟨0, 0⟩, labelCount := s.labelCount + 1 }
  pure s.labelCount

/-- The search in `GetNamedLabel`, `scc.c:1053-1057`. -/
def findNamed (s : S) (id : Int) : Option Nat := (List.range s.namedCount).find? fun i => (s.named.get i).id == id

/-- `GetNamedLabel`, `scc.c:1049-1063`; the value is the label. -/
def getNamedLabel (id : Int) : A Nat := do
  let s ← getS
  match findNamed s id with
  | some i => pure (s.named.get i).label
  | none =>
    failIf (s.namedCount == namedLabelMax)
    let l ← makeLabel
    modS fun t => { t with named := t.named.set s.namedCount ⟨id, l⟩, namedCount := s.namedCount + 1 }
    pure l

/-- `c[k]` for `c = &Output[r - CODESTART]`. -/
def rd (r : Nat) (k : Int) : A Byte := do
  let s ← getS
  let i := (r : Int) - codeStart + k
  ubUnless (decide (0 ≤ i ∧ i < outputMax))
  pure (s.out.get i.toNat)

/-- `c[k] = b`. -/
def wr (r : Nat) (k : Int) (b : Byte) : A Unit := do
  let i := (r : Int) - codeStart + k
  ubUnless (decide (0 ≤ i ∧ i < outputMax))
  modS fun s => { s with out := s.out.set i.toNat b }

/-- Fused `Jcc`/`JMP` whose target is near, `scc.c:1081-1102`. -/
def fixFused (r : Nat) (f : Int) : A Unit := do
  let c3 ← rd r (-3)
  let c2 ← rd r (-2)
  failIf (c3 &&& 0xF0 != 0x70 || c2 != 3)
  wr r (-3) (c3 ^^^ 1)
  wr r (-2) (byteOf (f + 3))
  wr r 1 0x90
  let n ← rd r 2
  if n = 0xEB then
    let d ← rd r 3
    if d.toInt > 0x7F - 3 then
      wr r (-1) 0x88
      wr r 0 0xC0
    else
      wr r (-1) 0xEB
      wr r 0 (d + 3)
  else if n = 0x5D then
    wr r (-1) 0x5D
    wr r 0 0xC3
  else
    wr r (-1) 0x88
    wr r 0 0xC0

/-- The displacement or address, `scc.c:1112-1123`. -/
def fixPlain (r : Nat) (f : Int) : A Unit := do
  let o ← rd r (-1)
  if o = 0xE9 ∧ fits8 (f + 1) then
    wr r (-1) 0xEB
    wr r 0 (byteOf (f + 1))
    wr r 1 0x90
  else
    wr r 0 (lo f)
    wr r 1 (hi f)

/-- One fixup, `scc.c:1070-1123`; the value is the next one. -/
def fixOne (r : Nat) (relative : Bool) : A Nat := do
  let s ← getS
  let f : Int := if relative then s.code - (r + 2) else s.code
  let a ← rd r 0
  let b ← rd r 1
  let next := a.toNat + 256 * b.toNat
  let o ← rd r (-1)
  if o = 0 then
    if f ≤ 0x7F - 3 then
      fixFused r f
      pure next
    else
      wr r (-1) 0xE9
      fixPlain r f
      pure next
  else if relative ∧ s.code = r + 2 ∧ s.lastFixup ≠ s.code then
    modS fun s => { s with code := s.code - 3 }
    pure next
  else
    fixPlain r f
    pure next

/-- `DoFixups`, `scc.c:1065-1126`.  The list of fixups is in the output; a list that never ends would be an endless loop. -/
def doFixups (relative : Bool) : Nat → Nat → A Unit
  | 0, _ => fail .fuel
  | n + 1, r => do
    if r = 0 then modS fun s => { s with lastFixup := s.code }
    else
      let next ← fixOne r relative
      doFixups relative n next

/-- The loop bound given to `doFixups`: the number of addresses. -/
abbrev fixFuel : Nat := 65536

/-- `AddFixup`, `scc.c:1128-1134`, for a label. -/
def addFixupLabel (l : Nat) : A Unit := do
  let s ← getS
  if s.dead then pure ()
  else
    outputWord (s.labels.get l).ref
    modS fun s => { s with labels := s.labels.set l ⟨(s.labels.get l).addr, s.code - 2⟩ }

/-- `AddFixup`, `scc.c:1128-1134`, for a variable or function. -/
def addFixupVar (v : Nat) : A Unit := do
  let s ← getS
  if s.dead then pure ()
  else
    outputWord (s.vars.get v).ref
    modS fun s => { s with vars := s.vars.set v { s.vars.get v with ref := s.code - 2 } }

/-- `EmitLocalLabel`, `scc.c:1138-1146`. -/
def emitLocalLabel (l : Int) : A Unit := do
  let s ← getS
  failIf (decide ((s.labelCount : Int) ≤ l))
  ubUnless (decide (0 ≤ l))
  let l := l.toNat
  failIf (decide ((s.labels.get l).addr ≠ 0))
  flushSpAdj
  modS fun s => { s with dead := false }
  let s ← getS
  doFixups true fixFuel (s.labels.get l).ref
  modS fun s => { s with labels := s.labels.set l ⟨s.code, 0⟩ }

/-- `CvtHex`, `scc.c:436-444`. -/
def hexDigit (n : Nat) : Byte := nb (if n < 10 then n + 0x30 else n + 0x37)
def cvtHex (n : Nat) : List Byte := [hexDigit (n / 4096 % 16), hexDigit (n / 256 % 16), hexDigit (n / 16 % 16), hexDigit (n % 16)]

/-- `StaticName`, `scc.c:1148`. -/
def staticName : List Byte := asc "@static"

/-- The line written to the map file, `scc.c:1156-1161`; it is put together in the free part of `IdBuffer`. -/
def mapLine (v : Nat) : A Unit := do
  let s ← getS
  let id := (s.vars.get v).id
  ubUnless (decide (id = -2 ∨ 0 ≤ id ∧ id < idMax))
  let name := if id = -2 then staticName else s.idText.get id.toNat
  ubUnless (s.idPos + name.length + 7 ≤ idBufferMax)
  modS fun s => { s with map := s.map ++ (cvtHex s.code ++ asc " " ++ name ++ [0x0D, 0x0A]).toArray }

/-- `EmitGlobalLabel`, `scc.c:1149-1162`. -/
def emitGlobalLabel (v : Nat) : A Unit := do
  let s ← getS
  let vd := s.vars.get v
  failIf (decide (vd.offset ≠ 0))
  modS fun s => { s with vars := s.vars.set v { s.vars.get v with offset := s.code }, dead := false }
  doFixups (vd.type &&& vtFun != 0) fixFuel vd.ref
  mapLine v

/-- `EmitGlobalRef`, `scc.c:1164-1171`. -/
def emitGlobalRef (v : Nat) : A Unit := do
  let s ← getS
  let a := (s.vars.get v).offset
  if a = 0 then addFixupVar v else outputWord a

/-- `EmitGlobalRefRel`, `scc.c:1173-1180`. -/
def emitGlobalRefRel (v : Nat) : A Unit := do
  let s ← getS
  let a := (s.vars.get v).offset
  if a = 0 then addFixupVar v else outputWord (a - s.code - 2)

/-! ## Instructions, `scc.c:1182-1376` -/

/-- `&VarDecls[Val]`. -/
def varAt (val : Int) : A Nat := do
  ubUnless (decide (0 ≤ val ∧ val < varDeclMax))
  pure val.toNat

/-- `EmitModrm`, `scc.c:1182-1202`. -/
def emitModrm (inst r loc : Nat) (val : Int) : A Unit := do
  let r := r * 8
  if loc = vtLocOff then
    output [nb inst, nb (0x46 ||| r), lo val]
    if fits8 val then pure ()
    else
      let s ← getS
      if s.dead then pure ()
      else
        let m ← rd s.code (-2)
        wr s.code (-2) (m + 0x40)
        output [hi val]
  else if loc = vtLocGlob then
    output [nb inst, nb (0x06 ||| r)]
    let v ← varAt val
    emitGlobalRef v
  else
    failIf (loc != 0)
    output [nb inst, nb (0x04 ||| r)]

/-- `EmitLoadAx`, `scc.c:1204-1217`. -/
def emitLoadAx (size loc : Nat) (val : Int) : A Unit := do
  if loc = 0 then output [nb (0xAB + size)]
  else if loc = vtLocGlob then
    output [nb (0x9F + size)]
    let v ← varAt val
    emitGlobalRef v
  else emitModrm (0x89 + size) rAX loc val

/-- `EmitStoreAx`, `scc.c:1219-1231`. -/
def emitStoreAx (size loc : Nat) (val : Int) : A Unit := do
  if loc = 0 then output [nb (0xA9 + size)]
  else if loc = vtLocGlob then
    output [nb (0xA1 + size)]
    let v ← varAt val
    emitGlobalRef v
  else emitModrm (0x87 + size) rAX loc val

/-- `EmitStoreConst`, `scc.c:1233-1239`. -/
def emitStoreConst (size loc : Nat) (val : Int) : A Unit := do
  emitModrm (0xC5 + size) 0 loc val
  let s ← getS
  output [lo s.val]
  if size = 2 then output [hi s.val] else pure ()

/-- `EmitAddRegConst`, `scc.c:1241-1262`. -/
def emitAddRegConst (r : Nat) (amm : Int) : A Unit := addRegConstWith output r amm

/-- `EmitMovRR`, `scc.c:1264-1267`. -/
def emitMovRR (d s : Nat) : A Unit := output [0x89, nb (0xC0 ||| s * 8 ||| d)]

/-- `EmitMovRImm`, `scc.c:1269-1272`. -/
def emitMovRImm (r : Nat) (val : Int) : A Unit := output [nb (0xB8 ||| r), lo val, hi val]

/-- `a & b` of `int`s. -/
def landI (a b : Int) : Int := (BitVec.ofInt 32 a &&& BitVec.ofInt 32 b).toInt

/-- `while (n /= 2) Output2Bytes(0xD1, rm)`. -/
def shiftLoop (rm : Byte) : Nat → Nat → A Unit
  | 0, _ => pure ()
  | k + 1, n => do
    if n / 2 = 0 then pure ()
    else
      output [0xD1, rm]
      shiftLoop rm k (n / 2)

/-- `EmitScaleAx`, `scc.c:1274-1284`. -/
def emitScaleAx (scale : Int) : A Unit := do
  ubUnless (decide (-(2 ^ 31) < scale))
  if landI scale (scale - 1) ≠ 0 then
    emitMovRImm rCX scale
    output [0xF7, 0xE1]
  else shiftLoop 0xE0 32 scale.toNat

/-- `EmitDivCX`, `scc.c:1286-1294`. -/
def emitDivCX : A Unit := do
  let s ← getS
  if s.isUnsigned then
    output [0x31, 0xD2]
    output [0xF7, 0xF1]
  else output [0x99, 0xF7, 0xF9]

/-- `EmitDivAxConst`, `scc.c:1296-1307`. -/
def emitDivAxConst (amm : Int) : A Unit := do
  ubUnless (decide (-(2 ^ 31) < amm))
  if landI amm (amm - 1) ≠ 0 then
    emitMovRImm rCX amm
    emitDivCX
  else
    let s ← getS
    shiftLoop (if s.isUnsigned then 0xE8 else 0xF8) 32 amm.toNat

/-- `EmitLocalJump`, `scc.c:1309-1326`. -/
def emitLocalJump (l : Int) : A Bool := do
  let s ← getS
  failIf (decide (¬(0 ≤ l ∧ l < s.labelCount)))
  let l := l.toNat
  let addr := (s.labels.get l).addr
  if addr = 0 then
    output [0xE9]
    addFixupLabel l
    pure false
  else
    let d : Int := addr - (s.code + 2)
    if fits8 d then output [0xEB, lo d]
    else
      output [0xE9]
      outputWord (d - 1)
    pure true

/-- `EmitJmp`, `scc.c:1328-1335`. -/
def emitJmp (l : Int) : A Unit := do
  modS fun s => { s with push := false }
  let b ← emitChecks
  if b then pure ()
  else
    let _ ← emitLocalJump l
    modS fun s => { s with dead := true }

/-- The part of `EmitJcc` for a label that is not near, `scc.c:1351-1353`. -/
def emitFarJcc (cc : Nat) (l : Int) : A Unit := do
  output [nb (0x70 ||| (cc ^^^ 1)), 3]
  let b ← emitLocalJump l
  if b then pure ()
  else
    let s ← getS
    wr s.code (-3) 0

/-- `EmitJcc`, `scc.c:1337-1354`. -/
def emitJcc (cc : Nat) (l : Int) : A Unit := do
  let b ← emitChecks
  if b then pure ()
  else
    let s ← getS
    ubUnless (decide (0 ≤ l ∧ l < labelMax))
    let a := (s.labels.get l.toNat).addr
    let d : Int := a - (s.code + 2)
    if a ≠ 0 ∧ fits8 d then output [nb (0x70 ||| cc), lo d]
    else emitFarJcc cc l

/-- `EmitLoadAddr`, `scc.c:1356-1368`. -/
def emitLoadAddr (reg loc : Nat) (val : Int) : A Unit := do
  if loc = vtLocOff then emitModrm 0x8D reg vtLocOff val
  else if loc = vtLocGlob then
    output [nb (0xB8 ||| reg)]
    let v ← varAt val
    emitGlobalRef v
  else fail .fatal

/-- `EmitExtend`, `scc.c:1370-1376`. -/
def emitExtend (uns : Bool) : A Unit := if uns then output [0x30, 0xE4] else output [0x98]

end Scc
