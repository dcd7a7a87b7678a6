import Verif.Scc.Emit
/-!
# Model of the compiler `scc.c`: types, variables, expressions

`scc.c:1419-2646`.  See `Verif/Scc/Lexer.lean` for the simplifications.

The functions of the parser are mutually recursive.  Here each takes the others as a parameter `go : Task → A Int`; `Verif/Scc/Parse.lean`
ties the knot with a bound on the depth of the recursion.  A loop with calls of the parser in it is a task of its own, which calls itself
for the next round.
-/
namespace Scc
open Prog Text

/-- The place where `ParseDeclarator` puts the identifier: none, a variable of the caller, a member, an argument. -/
inductive Dest | none | ret | member (k : Nat) | arg (k : Nat)

/-- The calls of parser functions (and rounds of their loops). -/
inductive Task
  /-- `ParseExpr`, `ParseAssignmentExpression`, `ParseExpr1`, the loop for the right operand in it, `ParseCastExpression`,
  `ParseUnaryExpression`, `ParsePostfixExpression`, the loop for the arguments of a call in it, `ParsePrimaryExpression`. -/
  | expr | assign | expr1 (outer : Nat) | rhs (prec : Nat) | cast | unary | postfix | args (size : Nat) | primary
  /-- `ParseDeclSpecs`, a round of its loop, rounds of its loops for enumerators and members. -/
  | declSpecs | specs (flags : Nat) | enums (val : Int) | members (si : Nat) (last : Option Nat) | memberList (si : Nat) (last : Option Nat)
  /-- `ParseDeclarator` (from `Redo` on), a round of its loops for parameters and array bounds. -/
  | declarator (dest : Dest) | params | bounds
  /-- `ParseStatement`, rounds of its loops for blocks and declarations. -/
  | stmt | stmts | locals (v : Nat)
  /-- A round of the loop of `ParseExternalDefition` for variables. -/
  | globals (v : Nat)

/-! ## Types and variables, `scc.c:1419-1670` -/

/-- `Expect`, `scc.c:1425-1434`. -/
def expect (t : Nat) : A Unit := do
  let s ← getS
  if s.tok = t then getToken else fail .fatal

/-- `ExpectId`, `scc.c:1436-1445`. -/
def expectId : A Nat := do
  let s ← getS
  if tokId ≤ s.tok then
    getToken
    pure (s.tok - tokKeyword)
  else fail .fatal

/-- `LookupTypedef`, `scc.c:1447-1455`. -/
def lookupTypedef (s : S) : Option VarDecl :=
  if s.tok < tokId then none
  else
    match s.lookup.get (s.tok - tokKeyword) with
    | none => none
    | some v => if (s.vars.get v).type &&& vtTypedef != 0 then some (s.vars.get v) else none

/-- `IsTypeStart`, `scc.c:1457-1480`. -/
def isTypeStart (s : S) : Bool :=
  [tokAuto, tokConst, tokVoid, tokChar, tokInt, tokEnum, tokExtern, tokRegister, tokShort, tokSigned, tokStatic, tokStruct, tokTypedef,
    tokUnion, tokUnsigned, tokVolatile, tokVaList].contains s.tok || (lookupTypedef s).isSome

/-- `&ArrayDecls[e]`. -/
def arrayAt (e : Int) : A Nat := do
  ubUnless (decide (0 ≤ e ∧ e < arrayMax))
  pure e.toNat

/-- The loop over the members in `SizeofType`, `scc.c:1499-1506`. -/
def sizeMembers (f : Nat → Int → A Nat) (isUnion : Bool) : Nat → Option Nat → Nat → A Nat
  | 0, _, _ => fail .fuel
  | _ + 1, none, size => pure size
  | n + 1, some k, size => do
    let s ← getS
    let m := s.members.get k
    let ms ← f m.type m.extra
    ubUnless (decide (size + ms < 2 ^ 31))
    sizeMembers f isUnion n m.next (if isUnion then max size ms else size + ms)

/-- `SizeofType`, `scc.c:1482-1511`. -/
def sizeofType : Nat → Nat → Int → A Nat
  | 0, _, _ => fail .fuel
  | n + 1, type, extra => do
    if type &&& (vtPtrMask ||| vtFunPtr) ≠ 0 then pure 2
    else if type &&& vtBaseMask = vtInt then pure 2
    else if type &&& vtBaseMask = vtChar then pure 1
    else if type &&& vtBaseMask = vtArray then
      let k ← arrayAt extra
      let s ← getS
      let ad := s.arrays.get k
      failIf (ad.bound == 0)
      let e ← sizeofType n ad.type ad.extra
      ubUnless (decide (ad.bound * e < 2 ^ 31))
      pure (ad.bound * e)
    else if type &&& vtBaseMask = vtStruct then
      ubUnless (decide (0 ≤ extra ∧ extra < structMax))
      let s ← getS
      let sd := s.structs.get extra.toNat
      sizeMembers (sizeofType n) (sd.id &&& 0x8000 != 0) 40 sd.members 0
    else fail .fatal

/-- The depth allowed: more than there are array and structure declarations. -/
abbrev sizeFuel : Nat := 50

/-- `SizeofCurrentType`, `scc.c:1513-1516`. -/
def sizeofCurrentType : A Nat := do
  let s ← getS
  sizeofType sizeFuel s.type s.extra

def setType (t : Nat) : A Unit := modS fun s => { s with type := t }
def setVal (v : Int) : A Unit := modS fun s => { s with val := v }
def setExtra (e : Int) : A Unit := modS fun s => { s with extra := e }
def setPush (b : Bool) : A Unit := modS fun s => { s with push := b }
def setDead (b : Bool) : A Unit := modS fun s => { s with dead := b }

/-- `LvalToRval`, `scc.c:1518-1548`. -/
def lvalToRval : A Unit := do
  let s ← getS
  if s.type &&& vtLval = 0 then pure ()
  else
    let loc := s.type &&& vtLocMask
    let t := clr s.type (vtLval ||| vtLocMask)
    setType t
    if t = vtArray then
      let k ← arrayAt s.extra
      let ad := s.arrays.get k
      setType (ad.type + vtPtr1)
      setExtra ad.extra
      if loc ≠ 0 then emitLoadAddr rAX loc s.val else pure ()
    else if t &&& vtFunPtr ≠ 0 then
      if loc ≠ 0 then emitLoadAddr rAX loc s.val else pure ()
    else
      let sz := if clr t vtUnsigned = vtChar then 0 else 1
      if loc = 0 then output [0x96, nb (0xAC ||| sz)] else emitLoadAx (sz + 1) loc s.val
      if sz = 0 then
        emitExtend (t &&& vtUnsigned != 0)
        setType vtInt
      else pure ()

/-- The instruction that adds or subtracts, `scc.c:1575-1582`. -/
def incDecInst (size : Nat) (minus wordOp : Bool) (loc : Nat) : A Unit := do
  let s ← getS
  if 1 < size then
    emitModrm 0x83 (if minus then 5 else 0) loc s.val
    output [nb size]
  else emitModrm (if wordOp then 0xFF else 0xFE) (if minus then 1 else 0) loc s.val

/-- `DoIncDecOp`, `scc.c:1550-1583`. -/
def doIncDecOp (op : Nat) (post : Bool) : A Unit := do
  let s ← getS
  failIf (s.type &&& vtLval == 0)
  let wordOp := s.type &&& (vtBaseMask ||| vtPtrMask) != vtChar
  let loc := s.type &&& vtLocMask
  let size ← if s.type &&& vtPtrMask ≠ 0 then sizeofType sizeFuel (s.type - vtPtr1) s.extra else pure 1
  if loc = 0 then output [0x96] else pure ()
  if post then
    emitLoadAx (if wordOp then 2 else 1) loc s.val
    if wordOp then pure () else emitExtend (s.type &&& vtUnsigned != 0)
    if loc = 0 then emitAddRegConst rSI (if wordOp then -2 else -1) else pure ()
    if wordOp then setType (clr s.type (vtLval ||| vtLocMask)) else setType vtInt
  else pure ()
  incDecInst size (op == tokMinusMinus) wordOp loc

/-- `AddVarDeclScope`, `scc.c:1585-1594`; the value is the index in `VarDecls`. -/
def addVarDeclScope (scope : Nat) (id : Int) : A Nat := do
  let s ← getS
  let v := s.scopes.get scope
  ubUnless (v < varDeclMax)
  modS fun s => { s with
    scopes := s.scopes.set scope (v + 1)
    vars := s.vars.set v ⟨id, s.type, s.extra, 0, 0, (s.vars.get v).prev⟩ }
  pure v

/-- `AddVarDecl`, `scc.c:1596-1610`. -/
def addVarDecl (id : Int) : A Nat := do
  let s ← getS
  failIf (decide (varDeclMax ≤ s.scopes.get (s.scopeCount - 1)))
  ubUnless (decide (0 ≤ id ∧ id < idMax))
  let prev := s.lookup.get id.toNat
  if s.ignoreRedef = 0 ∧ prev.isSome then pure (prev.getD 0)
  else
    let v ← addVarDeclScope (s.scopeCount - 1) id
    modS fun s => { s with
      vars := s.vars.set v { s.vars.get v with prev := prev }, lookup := s.lookup.set id.toNat (some v), log := .decl id v :: s.log }
    pure v

/-- `AddLateGlobalVar`, `scc.c:1612-1616`. -/
def addLateGlobalVar (id : Int) : A Nat := do
  let s ← getS
  setVal (s.scopes.get 0)
  failIf (decide (s.scopes.get 1 ≤ s.scopes.get 0))
  let v ← addVarDeclScope 0 id
  modS fun s => { s with log := .late id v :: s.log }
  pure v

/-- `PushScope`, `scc.c:1618-1624`. -/
def pushScope : A Unit := do
  let s ← getS
  failIf (s.scopeCount == scopeMax)
  modS fun s => { s with
    scopes := s.scopes.set s.scopeCount (s.scopes.get (s.scopeCount - 1)), scopeCount := s.scopeCount + 1, ignoreRedef := s.ignoreRedef + 1
    log := .push :: s.log }

/-- One variable in `PopScope`, `scc.c:1633-1642`. -/
def popVar (i : Nat) : A Unit := do
  let s ← getS
  let vd := s.vars.get i
  if vd.id < 0 then pure ()
  else
    if vd.ref ≠ 0 then
      setType vd.type
      setExtra vd.extra
      let w ← addLateGlobalVar (-2)
      modS fun s => { s with vars := s.vars.set w { s.vars.get w with ref := vd.ref } }
    else pure ()
    let s ← getS
    let vd := s.vars.get i
    ubUnless (decide (0 ≤ vd.id))
    modS fun s => { s with lookup := s.lookup.set vd.id.toNat vd.prev }

/-- The loop of `PopScope`, `scc.c:1632-1643`. -/
def popVars : Nat → Nat → A Unit
  | 0, _ => pure ()
  | n + 1, i => do
    popVar i
    popVars n (i + 1)

/-- `PopScope`, `scc.c:1626-1644`. -/
def popScope : A Unit := do
  let s ← getS
  failIf (s.scopeCount == 1)
  modS fun s => { s with scopeCount := s.scopeCount - 1, ignoreRedef := s.ignoreRedef - 1 }
  let s ← getS
  let i := s.scopes.get (s.scopeCount - 1)
  popVars (s.scopes.get s.scopeCount - i) i
  modS fun s => { s with log := .pop :: s.log }

/-- `HandlePrimaryId`, `scc.c:1646-1670`. -/
def handlePrimaryId : A Unit := do
  let s ← getS
  ubUnless (decide (0 ≤ s.val ∧ s.val < idMax))
  modS fun s => { s with log := .use s.val (s.lookup.get s.val.toNat) :: s.log }
  match s.lookup.get s.val.toNat with
  | none =>
    setType (vtLocGlob ||| vtFun ||| vtInt)
    setExtra 0
    if s.dead then setVal 0
    else
      modS fun s => { s with lookup := s.lookup.set s.val.toNat (some (s.scopes.get 0)) }
      let _ ← addLateGlobalVar s.val
      pure ()
  | some v =>
    let vd := s.vars.get v
    let t := vd.type ||| vtLval
    if t &&& vtLocMask = vtLocLit then
      modS fun s => { s with val := vd.offset, type := vtLocLit ||| vtInt }
    else if t &&& vtLocMask = vtLocGlob then
      modS fun s => { s with val := v, type := t, extra := vd.extra }
    else modS fun s => { s with val := vd.offset, type := t, extra := vd.extra }

/-! ## Primary and postfix expressions, `scc.c:1672-1986` -/

section
variable (go : Task → A Int)

/-- Run a task for its effect. -/
def go' (t : Task) : A Unit := do
  let _ ← go t
  pure ()

/-- `ParseAbstractDecl`, `scc.c:2910-2914`. -/
def parseAbstractDecl : A Unit := do
  go' go .declSpecs
  go' go (.declarator .none)

/-- `VarLookup[id]` in `HandleVarArg`. -/
def varOf (id : Nat) : A VarDecl := do
  let s ← getS
  match s.lookup.get id with
  | none => fail .fatal
  | some v => pure (s.vars.get v)

/-- `HandleVarArg`, `scc.c:1675-1701`. -/
def handleVarArg : A Unit := do
  let s ← getS
  let func := s.tok
  getToken
  expect 0x28
  let id ← expectId
  let vd ← varOf id
  failIf (vd.type != vtLocOff ||| vtChar ||| vtPtr1)
  if func = tokVaStart then
    expect 0x2C
    let id ← expectId
    let wd ← varOf id
    failIf (wd.type &&& vtLocMask != vtLocOff)
    emitModrm 0x8D rAX vtLocOff wd.offset
    emitStoreAx 2 vtLocOff vd.offset
  else if func = tokVaArg then
    expect 0x2C
    emitLoadAx 2 vtLocOff vd.offset
    emitAddRegConst rAX 2
    emitStoreAx 2 vtLocOff vd.offset
    parseAbstractDecl go
    modS fun s => { s with type := s.type ||| vtLval }
  else pure ()
  expect 0x29

/-- `while (TokenNumVal--) Output1Byte(*TokenStrLit++)`, `scc.c:1732-1733`. -/
def strBytes : Nat → A Unit
  | 0 => modS fun s => { s with num := s.num - 1 }
  | n + 1 => do
    let s ← getS
    ubUnless (s.str < outputMax)
    modS fun s => { s with num := s.num - 1, str := s.str + 1 }
    output [s.out.get s.str]
    strBytes n

/-- A string literal in a function, `scc.c:1727-1735`. -/
def strLocal : A Unit := do
  output [0xB8]
  let s ← getS
  outputWord (s.code + 5)
  let l ← makeLabel
  emitJmp l
  setDead false
  let s ← getS
  strBytes s.num.toNat
  emitLocalLabel l

/-- A string literal, `scc.c:1716-1738`. -/
def parseStrLit : A Unit := do
  let s ← getS
  failIf (s.arrayCount == arrayMax)
  modS fun s => { s with
    arrays := s.arrays.set s.arrayCount ⟨s.num.toNat, vtChar, 0⟩, type := vtArray ||| vtLval, extra := s.arrayCount
    arrayCount := s.arrayCount + 1 }
  if s.dead then pure ()
  else if s.scopeCount ≠ 1 then strLocal
  else strBytes s.num.toNat
  getToken

/-- `ParsePrimaryExpression`, `scc.c:1703-1747`. -/
def parsePrimary : A Unit := do
  let s ← getS
  if s.tok = 0x28 then
    getToken
    go' go .expr
    expect 0x29
  else if s.tok = tokNum then
    modS fun s => { s with type := vtLocLit ||| vtInt, val := s.num }
    getToken
  else if s.tok = tokStrLit then parseStrLit
  else if s.tok = tokVaArg ∨ s.tok = tokVaStart ∨ s.tok = tokVaEnd then handleVarArg go
  else
    let id ← expectId
    setVal id
    handlePrimaryId

/-- `GetVal`, `scc.c:1750-1768`. -/
def getVal : A Unit := do
  let s ← getS
  if s.type = vtBool then
    emitMovRImm rAX 0
    output [nb (0x70 ||| (s.val.toNat ^^^ 1)), 1, 0x40]
    setType vtInt
  else
    lvalToRval
    let s ← getS
    if s.type &&& vtLocMask ≠ 0 then
      failIf (s.type != vtInt ||| vtLocLit)
      setType vtInt
      if s.val ≠ 0 then emitMovRImm rAX s.val else output [0x31, 0xC0]
    else pure ()

/-- `GetStoredVal`, `scc.c:1772-1794`; `none` is the argument `-1`. -/
def getStoredVal (reg : Option Nat) : A Nat := do
  let s ← getS
  failIf s.push
  if s.regUse then
    modS fun s => { s with regUse := false }
    let r := reg.getD rBX
    if r = rBX then pure rBX
    else if r = rAX then
      output [0x93]
      pure rAX
    else
      emitMovRR r rBX
      pure r
  else
    let r := reg.getD rCX
    output [nb (0x58 ||| r)]
    modS fun s => { s with localOffset := s.localOffset + 2 }
    pure r

/-- `Output1Byte(I_PUSH|r); LocalOffset -= 2;`. -/
def pushReg (r : Nat) : A Unit := do
  output [nb (0x50 ||| r)]
  modS fun s => { s with localOffset := s.localOffset - 2 }

/-- Values kept in registers are saved before a call, `scc.c:1824-1839`. -/
def saveRegs : A Unit := do
  let s ← getS
  if s.push then
    setPush false
    if s.regUse then
      pushReg rBX
      modS fun s => { s with regUse := false }
    else pure ()
    pushReg rAX
  else pure ()
  let s ← getS
  if s.regUse then
    pushReg rBX
    modS fun s => { s with regUse := false }
  else pure ()

/-- Room for four more arguments, `scc.c:1844-1855`. -/
def argChunk (size : Nat) : A Unit := do
  if size % 8 = 0 then
    flushPushAx
    modS fun s => { s with localOffset := s.localOffset - 8, spAdj := s.spAdj - 8 }
    if size ≠ 0 then
      let s ← getS
      emitModrm 0x8D rSI vtLocOff (s.localOffset + 8)
      emitModrm 0x8D rDI vtLocOff s.localOffset
      emitMovRImm rCX (size / 2 : Nat)
      output [0xF3, 0xA5]
    else pure ()
  else pure ()

/-- An argument is put on the stack, `scc.c:1857-1863`. -/
def storeArg (size : Nat) : A Unit := do
  let s ← getS
  if s.type = vtInt ||| vtLocLit then emitStoreConst 2 vtLocOff (s.localOffset + size)
  else
    getVal
    let s ← getS
    failIf (clr s.type vtUnsigned != vtInt && s.type &&& vtPtrMask == 0)
    let s ← getS
    emitStoreAx 2 vtLocOff (s.localOffset + size)

/-- A round of the loop over the arguments, `scc.c:1843-1870`; the value is `ArgSize` after the loop. -/
def parseArgs (size : Nat) : A Int := do
  let s ← getS
  if s.tok = 0x29 then pure size
  else
    argChunk size
    go' go .assign
    storeArg size
    let s ← getS
    if s.tok = 0x2C then
      getToken
      go (.args (size + 2))
    else pure ((size + 2 : Nat) : Int)

/-- The function called: a global one, or one whose address is pushed, `scc.c:1809-1822`. -/
def callTarget : A (Option Nat) := do
  let s ← getS
  let loc := s.type &&& vtLocMask
  if loc = vtLocGlob then
    let v ← varAt s.val
    pure (some v)
  else
    if loc = 0 then output [0x96] else pure ()
    emitLoadAx 2 loc s.val
    pushReg rAX
    pure none

/-- The call and the end of it, `scc.c:1872-1882`. -/
def emitCall (func : Option Nat) (argSize : Nat) : A Unit := do
  let size := (argSize + 7) / 8 * 8
  match func with
  | some v =>
    output [0xE8]
    emitGlobalRefRel v
    modS fun s => { s with spAdj := s.spAdj + size, localOffset := s.localOffset + size }
  | none =>
    let s ← getS
    emitLoadAx 2 vtLocOff (s.localOffset + size)
    output [0xFF, 0xD0]
    modS fun s => { s with spAdj := s.spAdj + (size + 2 : Nat), localOffset := s.localOffset + (size + 2 : Nat) }

/-- A call, `scc.c:1805-1889`. -/
def parseCall : A Unit := do
  getToken
  let s ← getS
  failIf (s.type &&& vtFunPtr == 0)
  let retType := clr s.type (vtFunPtr ||| vtLocMask ||| vtLval)
  let func ← callTarget
  let retExtra := match func with
    | some v => (s.vars.get v).extra
    | none => s.extra
  saveRegs
  let size ← go (.args 0)
  expect 0x29
  emitCall func size.toNat
  setType (if clr retType vtUnsigned = vtChar then vtInt else retType)
  setExtra retExtra

/-- The array or pointer, `scc.c:1894-1907`: the index of the variable for a global array. -/
def indexBase : A (Option Nat) := do
  let s ← getS
  if s.type &&& (vtBaseMask ||| vtLocMask) = vtArray ||| vtLocGlob then
    let k ← arrayAt s.extra
    let v ← varAt s.val
    setType (s.arrays.get k).type
    setExtra (s.arrays.get k).extra
    pure (some v)
  else
    lvalToRval
    let s ← getS
    failIf (s.type &&& vtPtrMask == 0)
    setType (s.type - vtPtr1)
    if s.dead then pure () else setPush true
    pure none

/-- `a * b`, undefined if it is no `int`. -/
def mulI (a b : Int) : A Int := do
  ubUnless (decide (-(2 ^ 31) ≤ a * b ∧ a * b < 2 ^ 31))
  pure (a * b)

/-- The address of the element, `scc.c:1914-1935`. -/
def indexAddr (arr : Option Nat) (scale : Nat) : A Unit := do
  let s ← getS
  if s.type = vtInt ||| vtLocLit then
    match arr with
    | some v =>
      output [0xB8]
      emitGlobalRef v
    | none =>
      failIf (!s.push)
      setPush false
    let d ← mulI s.val scale
    emitAddRegConst rAX d
  else
    lvalToRval
    let s ← getS
    failIf (clr s.type vtUnsigned != vtInt || s.push)
    emitScaleAx scale
    match arr with
    | some v =>
      output [0x05]
      emitGlobalRef v
    | none =>
      let r ← getStoredVal none
      output [0x01, nb (0xC0 ||| r * 8)]

/-- Indexing, `scc.c:1892-1939`. -/
def parseIndex : A Unit := do
  getToken
  let arr ← indexBase
  let scale ← sizeofCurrentType
  let s ← getS
  let resType := s.type ||| vtLval
  let resExtra := s.extra
  go' go .expr
  expect 0x5D
  let s ← getS
  if s.dead then pure () else indexAddr arr scale
  setType resType
  setExtra resExtra
  failIf (resType &&& vtLocMask != 0)

/-- The search of a member, `scc.c:1949-1956`: the member and its offset. -/
def findMember (id : Nat) : Nat → Option Nat → Nat → A (StructMember × Nat)
  | 0, _, _ => fail .fuel
  | _ + 1, none, _ => fail .fatal
  | n + 1, some k, off => do
    let s ← getS
    let m := s.members.get k
    if m.id = id then pure (m, off)
    else
      let sz ← sizeofType sizeFuel m.type m.extra
      findMember id n m.next (off + sz)

/-- The address of a member, `scc.c:1957-1968`: the location. -/
def memberAddr (off loc : Nat) (isUnion : Bool) : A Nat := do
  if off ≠ 0 ∧ !isUnion then
    if loc = vtLocOff then
      modS fun s => { s with val := s.val + off }
      pure loc
    else
      let s ← getS
      if loc ≠ 0 then emitLoadAddr rAX loc s.val else pure ()
      emitAddRegConst rAX off
      pure 0
  else pure loc

/-- Access to a member, `scc.c:1943-1972`. -/
def parseMember : A Unit := do
  getToken
  let id ← expectId
  let s ← getS
  failIf (decide (¬(0 ≤ s.extra ∧ s.extra < s.structCount)))
  let sd := s.structs.get s.extra.toNat
  let (m, off) ← findMember id 40 sd.members 0
  let s ← getS
  let loc ← memberAddr off (s.type &&& vtLocMask) (sd.id &&& 0x8000 != 0)
  setType (m.type ||| vtLval ||| loc)
  setExtra m.extra

/-- A round of `ParsePostfixExpression`, `scc.c:1796-1986`. -/
def parsePostfix : A Unit := do
  let s ← getS
  if s.prec ≠ precStop then pure ()
  else if s.tok = 0x28 then
    parseCall go
    go' go .postfix
  else if s.tok = 0x5B then
    parseIndex go
    go' go .postfix
  else if s.tok = 0x2E then
    failIf (clr s.type vtLocMask != vtStruct ||| vtLval)
    parseMember
    go' go .postfix
  else if s.tok = tokArrow then
    lvalToRval
    let s ← getS
    failIf (clr s.type vtLocMask != vtStruct ||| vtPtr1)
    setType (s.type - vtPtr1)
    parseMember
    go' go .postfix
  else if s.tok = tokPlusPlus ∨ s.tok = tokMinusMinus then
    doIncDecOp s.tok true
    getToken
    go' go .postfix
  else pure ()

/-! ## Unary expressions and casts, `scc.c:1988-2133` -/

/-- `ToBool`, `scc.c:1990-1997`. -/
def toBool : A Unit := do
  lvalToRval
  let s ← getS
  if s.code ≠ s.lastZF then output [0x21, 0xC0] else pure ()
  modS fun s => { s with type := vtBool, val := jNZ }

/-- The operator `&`, `scc.c:2016-2026`. -/
def doAddrOf : A Unit := do
  let s ← getS
  failIf (s.type &&& vtLval == 0)
  if s.type &&& vtFunPtr ≠ 0 then pure ()
  else
    let loc := s.type &&& vtLocMask
    if loc ≠ 0 then emitLoadAddr rAX loc s.val else pure ()
    setType (clr s.type (vtLval ||| vtLocMask) + vtPtr1)

/-- The operators other than `&`, `scc.c:2036-2067`. -/
def doUnary (op : Nat) (isConst : Bool) : A Unit := do
  let s ← getS
  if op = 0x2D then
    if isConst then
      ubUnless (decide (-(2 ^ 31) < s.val))
      setVal (-s.val)
    else
      failIf (clr s.type vtUnsigned != vtInt)
      output [0xF7, 0xD8]
  else if op = 0x21 then
    if isConst then setVal (if s.val = 0 then 1 else 0)
    else
      if s.type ≠ vtBool then toBool else pure ()
      modS fun s => { s with val := (s.val.toNat ^^^ 1 : Nat) }
  else if op = 0x2A then
    if s.type &&& vtFunPtr ≠ 0 then pure ()
    else
      failIf (s.type &&& vtPtrMask == 0)
      setType ((s.type - vtPtr1) ||| vtLval)
  else if op = 0x7E then
    if isConst then setVal (-s.val - 1)
    else
      failIf (clr s.type vtUnsigned != vtInt)
      output [0xF7, 0xD0]
  else failIf (op != 0x2B)

/-- A unary operator, `scc.c:2010-2069`. -/
def parseUnaryOp : A Unit := do
  let s ← getS
  let op := s.tok
  getToken
  go' go .cast
  if op = 0x26 then doAddrOf
  else
    let s ← getS
    if s.type &&& vtLocMask = vtLocLit then
      failIf (s.type != vtInt ||| vtLocLit)
      doUnary op true
    else
      lvalToRval
      doUnary op false

/-- `sizeof`, `scc.c:2079-2101`. -/
def parseSizeof : A Unit := do
  getToken
  let s ← getS
  setDead true
  if s.tok = 0x28 then
    getToken
    let t ← getS
    if isTypeStart t then
      parseAbstractDecl go
      let n ← sizeofCurrentType
      setVal n
    else go' go .assign
    expect 0x29
  else go' go .unary
  let t ← getS
  failIf (!t.dead)
  setDead s.dead
  let n ← sizeofCurrentType
  setVal n
  setType (vtLocLit ||| vtInt)

/-- `ParseUnaryExpression`, `scc.c:1999-2105`. -/
def parseUnary : A Unit := do
  let s ← getS
  if s.tok = 0x2D ∨ s.tok = 0x21 ∨ s.tok = 0x2A ∨ s.tok = 0x26 ∨ s.tok = 0x7E ∨ s.tok = 0x2B then parseUnaryOp go
  else if s.tok = tokPlusPlus ∨ s.tok = tokMinusMinus then
    getToken
    go' go .unary
    doIncDecOp s.tok false
  else if s.tok = tokSizeof then parseSizeof go
  else
    go' go .primary
    go' go .postfix

/-- `ParseCastExpression`, `scc.c:2107-2133`. -/
def parseCast : A Unit := do
  let s ← getS
  if s.tok = 0x28 then
    getToken
    let s ← getS
    if isTypeStart s then
      parseAbstractDecl go
      expect 0x29
      let s ← getS
      failIf (s.type &&& vtLocMask != 0)
      go' go .cast
      getVal
      setType s.type
      setExtra s.extra
      if clr s.type vtUnsigned = vtChar then
        emitExtend (s.type &&& vtUnsigned != 0)
        setType vtInt
      else pure ()
    else
      go' go .expr
      expect 0x29
      go' go .postfix
  else go' go .unary

/-! ## Binary operators, `scc.c:2135-2646` -/

/-- `RemoveAssign`, `scc.c:2135-2150`. -/
def removeAssign (op : Nat) : Option Nat :=
  if op = tokPlusEq then some 0x2B
  else if op = tokMinusEq then some 0x2D
  else if op = tokStarEq then some 0x2A
  else if op = tokSlashEq then some 0x2F
  else if op = tokModEq then some 0x25
  else if op = tokLshEq then some tokLsh
  else if op = tokRshEq then some tokRsh
  else if op = tokAndEq then some 0x26
  else if op = tokXorEq then some 0x5E
  else if op = tokOrEq then some 0x7C
  else none

/-- `GetSimpleALU`, `scc.c:2152-2168`: the opcode and the condition code (0 if there is none). -/
def getSimpleALU (op : Nat) (u : Bool) : Option (Nat × Nat) :=
  if op = 0x2B then some (0x01, 0)
  else if op = 0x2D then some (0x29, 0)
  else if op = 0x26 then some (0x21, 0)
  else if op = 0x5E then some (0x31, 0)
  else if op = 0x7C then some (0x09, 0)
  else if op = 0x3C then some (0x39, if u then jC else jL)
  else if op = tokLtEq then some (0x39, if u then jNA else jNG)
  else if op = 0x3E then some (0x39, if u then jA else jG)
  else if op = tokGtEq then some (0x39, if u then jNC else jNL)
  else if op = tokEqEq then some (0x39, jZ)
  else if op = tokNotEq then some (0x39, jNZ)
  else none

/-- `FinishOp`, `scc.c:2170-2176`. -/
def finishOp (cc : Nat) : A Unit := if cc = 0 then pure () else modS fun s => { s with type := vtBool, val := cc }

/-- `DoBinOp`, `scc.c:2179-2219`. -/
def doBinOp (op reg : Nat) : A Unit := do
  let s ← getS
  match getSimpleALU op s.isUnsigned with
  | some (inst, cc) =>
    output [nb inst, nb (0xC0 ||| reg * 8)]
    finishOp cc
  | none =>
    if op = 0x2A then output [0xF7, nb (0xE0 ||| reg)]
    else
      failIf (reg != rCX)
      if op = 0x2F then emitDivCX
      else if op = 0x25 then
        emitDivCX
        output [0x92]
      else if op = tokLsh then output [0xD3, 0xE0]
      else
        failIf (op != tokRsh)
        output [0xD3, if s.isUnsigned then 0xE8 else 0xF8]

/-- `DoRhsLvalBinOp`, `scc.c:2221-2234`. -/
def doRhsLvalBinOp (op : Nat) : A Bool := do
  let s ← getS
  let loc := s.type &&& vtLocMask
  setType (clr s.type (vtLocMask ||| vtLval))
  match getSimpleALU op s.isUnsigned with
  | none =>
    output [0x91]
    emitLoadAx 2 loc s.val
    pure false
  | some (inst, cc) =>
    emitModrm (inst ||| 3) rAX loc s.val
    finishOp cc
    pure true

/-- `DoRhsConstBinOp`, `scc.c:2236-2256`. -/
def doRhsConstBinOp (op : Nat) : A Unit := do
  let s ← getS
  if op = 0x2B then emitAddRegConst rAX s.val
  else if op = 0x2D then
    ubUnless (decide (-(2 ^ 31) < s.val))
    emitAddRegConst rAX (-s.val)
  else if op = 0x2A then emitScaleAx s.val
  else if op = 0x2F then emitDivAxConst s.val
  else
    match getSimpleALU op s.isUnsigned with
    | some (inst, cc) =>
      output [nb (inst ||| 5), lo s.val, hi s.val]
      finishOp cc
    | none =>
      if op &&& 0x80 ≠ 0 then output [0xB1, lo s.val] else emitMovRImm rCX s.val
      doBinOp op rCX

/-- An `int`, or undefined behaviour. -/
def intResult (v : Int) : Except Err Int := if -(2 ^ 31) ≤ v ∧ v < 2 ^ 31 then .ok v else .error .ub

/-- `DoConstBinOp`, `scc.c:2258-2273`. -/
def constBinOp (op : Nat) (l r : Int) : Except Err Int :=
  if op = 0x2B then intResult (l + r)
  else if op = 0x2D then intResult (l - r)
  else if op = 0x2A then intResult (l * r)
  else if op = 0x2F then if r = 0 then .error .ub else intResult (l.tdiv r)
  else if op = 0x25 then if r = 0 ∨ l = -(2 ^ 31) ∧ r = -1 then .error .ub else .ok (l.tmod r)
  else if op = 0x26 then .ok (landI l r)
  else if op = 0x5E then .ok (BitVec.ofInt 32 l ^^^ BitVec.ofInt 32 r).toInt
  else if op = 0x7C then .ok (BitVec.ofInt 32 l ||| BitVec.ofInt 32 r).toInt
  else if op = tokLsh then if 0 ≤ r ∧ r < 32 ∧ 0 ≤ l then intResult (l * 2 ^ r.toNat) else .error .ub
  else if op = tokRsh then if 0 ≤ r ∧ r < 32 then .ok (l >>> r.toNat) else .error .ub
  else .error .fatal

def doConstBinOp (op : Nat) (l r : Int) : A Int :=
  match constBinOp op l r with
  | .ok v => pure v
  | .error e => fail e

/-- `OpCommutes`, `scc.c:2275-2288`. -/
def opCommutes (op : Nat) : Bool := [0x2B, 0x2A, tokEqEq, tokNotEq, 0x26, 0x5E, 0x7C].contains op

/-- `DoCondHasExpr`, `scc.c:2290-2302`. -/
def doCondHasExpr (l : Int) (forward : Bool) : A Unit := do
  let s ← getS
  if s.type = vtLocLit ||| vtInt then
    if s.val = 0 ∧ forward then emitJmp l else pure ()
  else
    if s.type ≠ vtBool then toBool else pure ()
    let s ← getS
    emitJcc (s.val.toNat ^^^ (if forward then 1 else 0)) l

/-- `DoCond`, `scc.c:2305-2309`. -/
def doCond (l : Int) (forward : Bool) : A Unit := do
  go' go .expr
  doCondHasExpr l forward

/-- `ForceToReg`, `scc.c:2311-2325`. -/
def forceToReg : A Unit := do
  let s ← getS
  if s.type &&& vtBaseMask = vtArray then lvalToRval else pure ()
  let s ← getS
  let loc := s.type &&& vtLocMask
  if loc = 0 then pure ()
  else if loc = vtLocGlob ∨ loc = vtLocOff then
    emitLoadAddr rAX loc s.val
    modS fun s => { s with type := clr s.type vtLocMask }
  else getVal

/-- `ParseMaybeDead`, `scc.c:2327-2344`. -/
def parseMaybeDead (live : Bool) : A Unit := do
  if live then go' go .assign
  else
    let s ← getS
    setDead true
    go' go .assign
    let t ← getS
    failIf (!t.dead)
    modS fun t => { t with dead := s.dead, type := s.type, val := s.val, extra := s.extra }

/-- `HandleCondOp`, `scc.c:2346-2383`. -/
def handleCondOp : A Unit := do
  let s ← getS
  if s.type = vtLocLit ||| vtInt then
    parseMaybeDead go (s.val ≠ 0)
    expect 0x3A
    parseMaybeDead go (s.val = 0)
  else
    let falseLabel ← makeLabel
    let endLabel ← makeLabel
    doCondHasExpr falseLabel true
    go' go .assign
    forceToReg
    let s ← getS
    let lhsType := s.type
    emitJmp endLabel
    expect 0x3A
    emitLocalLabel falseLabel
    go' go .assign
    forceToReg
    let s ← getS
    let diff := lhsType ^^^ s.type
    if diff &&& vtLval ≠ 0 ∨ diff &&& vtBaseMask ≠ 0 ∧ s.type &&& vtPtrMask = 0 then
      let realEnd ← makeLabel
      lvalToRval
      emitJmp realEnd
      emitLocalLabel endLabel
      setType lhsType
      lvalToRval
      emitLocalLabel realEnd
    else emitLocalLabel endLabel

/-- `HandleLhsLvalLoc`, `scc.c:2385-2401`. -/
def handleLhsLvalLoc (loc : Nat) : A Unit := do
  if loc = vtLocOff ∨ loc = vtLocGlob then pure ()
  else if loc = 0 then
    let s ← getS
    if s.push then
      setPush false
      output [0x97]
    else
      let _ ← getStoredVal (some rDI)
      pure ()
  else fail .fatal

/-- The left operand, `scc.c:2423-2450`: the operator (without `=`) and `LEnd`. -/
def lhsStep (op prec : Nat) : A (Nat × Int) := do
  let s ← getS
  let op ←
    if prec = precAssign then do
      failIf (s.type &&& vtLval == 0)
      setType (clr s.type vtLval)
      if op = 0x3D then pure op
      else
        match removeAssign op with
        | some o => pure o
        | none => fail .fatal
    else do
      lvalToRval
      pure op
  if op = tokOrOr ∨ op = tokAndAnd then
    let l ← makeLabel
    let s ← getS
    if s.type ≠ vtBool then toBool else pure ()
    let s ← getS
    emitJcc (s.val.toNat ^^^ (if op = tokOrOr then 0 else 1)) l
    pure (op, l)
  else
    let s ← getS
    if s.type = vtBool then getVal else pure ()
    let s ← getS
    if s.type &&& vtLocMask = 0 ∧ op ≠ 0x2C ∧ !s.dead then setPush true else pure ()
    pure (op, -1)

/-- The end of `&&` and `||`, `scc.c:2473-2484`. -/
def finishLogic (op : Nat) (lEnd : Int) (lhsVal : Int) : A Unit := do
  let s ← getS
  if s.type ≠ vtBool then toBool else pure ()
  let s ← getS
  let t := if op = tokOrOr then 1 else 0
  if lhsVal ≠ s.val then
    output [0xB0, nb (1 - t)]
    output [nb (0x70 ||| (s.val.toNat ^^^ t)), 2]
    emitLocalLabel lEnd
    output [0xB0, nb t, 0x98]
    setType vtInt
  else emitLocalLabel lEnd

/-- The assignment of structures, `scc.c:2493-2505`. -/
def assignStruct (lhsLoc : Nat) (lhsExtra lhsVal : Int) : A Unit := do
  let s ← getS
  failIf (clr s.type vtLocMask != vtStruct ||| vtLval || s.extra != lhsExtra)
  let loc := s.type &&& vtLocMask
  if lhsLoc ≠ 0 then emitLoadAddr rDI lhsLoc lhsVal else pure ()
  if loc ≠ 0 then emitLoadAddr rSI loc s.val else output [0x96]
  let n ← sizeofCurrentType
  emitMovRImm rCX n
  output [0xF3, 0xA4]

/-- Operations on a word in memory, `scc.c:2520-2531`. -/
def assignALU (inst : Nat) (isConst : Bool) (lhsType lhsLoc : Nat) (lhsVal : Int) : A Unit := do
  if isConst then
    emitModrm 0x81 (inst / 8) lhsLoc lhsVal
    let s ← getS
    outputWord s.val
  else
    getVal
    emitModrm inst rAX lhsLoc lhsVal
  if lhsLoc = 0 then output [0x97] else pure ()
  modS fun s => { s with type := lhsType ||| lhsLoc ||| vtLval, val := lhsVal }

/-- Other operations with assignment, `scc.c:2534-2548, 2561`. -/
def assignOther (op size : Nat) (isConst : Bool) (lhsType lhsLoc : Nat) (lhsVal : Int) : A Unit := do
  if isConst then pure ()
  else
    let s ← getS
    failIf (clr s.type vtUnsigned != vtInt)
    output [0x91]
  emitLoadAx size lhsLoc lhsVal
  if size = 1 then emitExtend (lhsType &&& vtUnsigned != 0) else pure ()
  if isConst then
    doRhsConstBinOp op
    modS fun s => { s with type := clr s.type vtLocMask }
  else doBinOp op rCX
  modS fun s => { s with lastZF := s.code }
  emitStoreAx size lhsLoc lhsVal

/-- Operation and assignment, `scc.c:2514-2548`. -/
def assignOp (op size lhsType lhsLoc : Nat) (lhsVal : Int) : A Unit := do
  if lhsLoc = 0 then emitMovRR rSI rDI else pure ()
  let s ← getS
  let isConst := s.type == vtInt ||| vtLocLit
  match if size = 2 then getSimpleALU op s.isUnsigned else none with
  | some (inst, _) => assignALU inst isConst lhsType lhsLoc lhsVal
  | none => assignOther op size isConst lhsType lhsLoc lhsVal

/-- The assignment, `scc.c:2490-2562`. -/
def finishAssign (op lhsType lhsLoc : Nat) (lhsExtra lhsVal : Int) : A Unit := do
  handleLhsLvalLoc lhsLoc
  if lhsType = vtStruct then assignStruct lhsLoc lhsExtra lhsVal
  else
    lvalToRval
    let size := if clr lhsType vtUnsigned = vtChar then 1 else 2
    let s ← getS
    if op ≠ 0x3D then assignOp op size lhsType lhsLoc lhsVal
    else if s.type = vtInt ||| vtLocLit then
      if lhsLoc = 0 then
        getVal
        output [nb (0xA9 + size)]
      else emitStoreConst size lhsLoc lhsVal
    else
      getVal
      emitStoreAx size lhsLoc lhsVal

/-- A right operand that is no constant, with a left operand that is none, `scc.c:2595-2623`. -/
def finishVar (op lhsType pointee : Nat) : A Unit := do
  let comm := opCommutes op
  failIf (clr lhsType vtUnsigned != vtInt && pointee == 0)
  let s ← getS
  if ¬(op = 0x2B ∧ pointee ≠ 0) ∧ s.push ∧ s.type &&& vtBaseMask ≠ vtArray ∧ s.type &&& (vtBaseMask ||| vtPtrMask) ≠ vtChar then
    failIf (s.type &&& vtLval == 0)
    setPush false
    let b ← doRhsLvalBinOp op
    if b then pure ()
    else
      if comm then pure () else output [0x91]
      doBinOp op rCX
  else
    if op = 0x2B ∧ pointee ≠ 0 then
      getVal
      emitScaleAx pointee
      setType lhsType
    else pure ()
    getVal
    if comm then
      let r ← getStoredVal none
      doBinOp op r
    else
      output [0x91]
      let _ ← getStoredVal (some rAX)
      doBinOp op rCX

/-- The operators without assignment, `scc.c:2564-2630`. -/
def finishBin (op lhsType lhsLoc : Nat) (lhsExtra lhsVal : Int) : A Unit := do
  let pointee ← if lhsType &&& vtPtrMask ≠ 0 then do
      let n ← sizeofType sizeFuel (lhsType - vtPtr1) lhsExtra
      let s ← getS
      if s.type &&& vtBaseMask = vtArray then lvalToRval else pure ()
      modS fun s => { s with extra := lhsExtra, isUnsigned := true }
      pure n
    else pure 0
  let s ← getS
  if s.type = vtLocLit ||| vtInt then
    failIf (!(s.push || s.dead))
    setPush false
    setType vtInt
    if lhsType &&& vtPtrMask ≠ 0 then
      let v ← mulI s.val pointee
      setVal v
      setType lhsType
    else pure ()
    doRhsConstBinOp op
  else if lhsLoc = vtLocLit then
    failIf (lhsType != vtInt)
    getVal
    if opCommutes op then
      setVal lhsVal
      doRhsConstBinOp op
    else
      emitMovRImm rCX lhsVal
      output [0x91]
      doBinOp op rCX
  else finishVar op lhsType pointee
  if op = 0x2D ∧ pointee ≠ 0 then
    emitDivAxConst pointee
    setType vtInt
  else pure ()
  modS fun s => { s with lastZF := s.code }

/-- After the right operand, `scc.c:2459-2630`. -/
def finishExpr1 (op prec : Nat) (lEnd : Int) (lhsType : Nat) (lhsExtra lhsVal : Int) : A Unit := do
  if op = 0x2C then pure ()
  else
    let s ← getS
    let lhsLoc := lhsType &&& vtLocMask
    let lhsType := clr lhsType vtLocMask
    if lhsLoc = vtLocLit ∧ s.type = vtLocLit ||| vtInt then
      failIf (lhsType != vtInt)
      let v ← doConstBinOp op lhsVal s.val
      setVal v
    else if 0 ≤ lEnd then finishLogic op lEnd lhsVal
    else
      modS fun s => { s with isUnsigned :=
        lhsType == vtUnsigned ||| vtInt || s.type &&& (vtUnsigned ||| vtPtrMask ||| vtBaseMask) == vtUnsigned ||| vtInt }
      if prec = precAssign then finishAssign op lhsType lhsLoc lhsExtra lhsVal
      else finishBin op lhsType lhsLoc lhsExtra lhsVal

/-- An operator and its right operand, `scc.c:2423-2630`. -/
def parseBinary (op prec : Nat) : A Unit := do
  let (op, lEnd) ← lhsStep op prec
  let s ← getS
  go' go .cast
  go' go (.rhs prec)
  finishExpr1 op prec lEnd s.type s.extra s.val

/-- A round of `ParseExpr1`, `scc.c:2403-2632`. -/
def parseExpr1 (outer : Nat) : A Unit := do
  let s ← getS
  getToken
  if s.tok = 0x3F then handleCondOp go else parseBinary go s.tok s.prec
  let s ← getS
  if s.prec ≤ outer then go' go (.expr1 outer) else pure ()

/-- A round of the loop for the right operand, `scc.c:2453-2457`. -/
def parseRhs (prec : Nat) : A Unit := do
  let s ← getS
  if prec < s.prec ∨ s.prec = prec ∧ s.prec ≠ precAssign then pure ()
  else
    go' go (.expr1 s.prec)
    go' go (.rhs prec)

/-- `ParseExpr`, `scc.c:2634-2639`, and `ParseAssignmentExpression`, `scc.c:2641-2646`. -/
def parseExpr (prec : Nat) : A Unit := do
  go' go .cast
  let s ← getS
  if s.prec ≤ prec then go' go (.expr1 prec) else pure ()

end
end Scc
