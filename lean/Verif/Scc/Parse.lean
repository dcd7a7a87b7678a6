import Verif.Scc.Expr
/-!
# Model of the compiler `scc.c`: declarations, statements, the whole program

`scc.c:2648-3475`.  See `Verif/Scc/Lexer.lean` for the simplifications.
-/
namespace Scc
open Prog Text

section
variable (go : Task → A Int)

/-! ## Declarations, `scc.c:2648-2943` -/

/-- `SaveBaseType`, `scc.c:2648-2657`. -/
def saveBaseType : A Unit := do
  let s ← getS
  if s.type &&& vtBaseMask = vtArray then
    let k ← arrayAt s.extra
    modS fun s => { s with baseType := (s.arrays.get k).type, baseExtra := (s.arrays.get k).extra }
  else modS fun s => { s with baseType := clr s.type vtPtrMask, baseExtra := s.extra }

/-- `*Last = k`: the end of the list of members. -/
def setLast (si : Nat) (last : Option Nat) (k : Option Nat) : A Unit :=
  match last with
  | none => modS fun s => { s with structs := s.structs.set si { s.structs.get si with members := k } }
  | some m => modS fun s => { s with members := s.members.set m { s.members.get m with next := k } }

/-- `Last` as the value of a task. -/
def encLast : Option Nat → Int
  | none => -1
  | some k => k
def decLast (i : Int) : Option Nat := if i < 0 then none else some i.toNat

/-- A round of the loop over the declarators of members, `scc.c:2764-2780`. -/
def parseMemberList (si : Nat) (last : Option Nat) : A Int := do
  let s ← getS
  if s.tok = 0x3B then pure (encLast last)
  else
    failIf (s.memCount == structMemberMax)
    let k := s.memCount
    modS fun s => { s with memCount := k + 1 }
    go' go (.declarator (.member k))
    let s ← getS
    failIf (decide ((s.members.get k).id < 0))
    modS fun s => { s with members := s.members.set k { s.members.get k with type := s.type, extra := s.extra } }
    setLast si last (some k)
    if s.tok = 0x2C then
      getToken
      modS fun s => { s with type := s.baseType, extra := s.baseExtra }
      go (.memberList si (some k))
    else pure (encLast (some k))

/-- A round of the loop over the members, `scc.c:2760-2782`. -/
def parseMembers (si : Nat) (last : Option Nat) : A Int := do
  let s ← getS
  if s.tok = 0x7D then pure (encLast last)
  else
    go' go .declSpecs
    saveBaseType
    let r ← go (.memberList si last)
    expect 0x3B
    go (.members si (decLast r))

/-- The search of a structure, `scc.c:2744-2749`: the last one with the name. -/
def findStruct (s : S) (id : Nat) : Int :=
  match (List.range s.structCount).reverse.find? fun i => (s.structs.get i).id == id with
  | some i => i
  | none => -1

/-- The name of a structure, `scc.c:2736-2752`: the identifier with the flag. -/
def structName : A Nat := do
  let s ← getS
  let flag := if s.tok = tokUnion then 0x8000 else 0
  getToken
  setExtra (-1)
  let s ← getS
  if tokId ≤ s.tok then
    let i ← expectId
    let id := flag ||| i
    modS fun s => { s with extra := findStruct s id }
    pure id
  else pure (flag ||| idMax)

/-- `struct` and `union`, `scc.c:2735-2788`. -/
def parseStruct : A Unit := do
  let id ← structName
  let s ← getS
  if s.tok = 0x7B then
    getToken
    failIf (s.structCount == structMax)
    let si := s.structCount
    modS fun s => { s with structCount := si + 1, structs := s.structs.set si { s.structs.get si with id := id } }
    let r ← go (.members si none)
    getToken
    setLast si (decLast r) none
    setExtra si
  else pure ()
  setType vtStruct

/-- A round of the loop over the enumerators, `scc.c:2710-2727`. -/
def parseEnums (val : Int) : A Unit := do
  let s ← getS
  if s.tok = 0x7D then pure ()
  else
    let id ← expectId
    let s ← getS
    let val ←
      if s.tok = 0x3D then do
        getToken
        go' go .assign
        let s ← getS
        failIf (s.type != vtInt ||| vtLocLit)
        pure s.val
      else pure val
    setType (vtInt ||| vtLocLit)
    let v ← addVarDecl id
    modS fun s => { s with vars := s.vars.set v { s.vars.get v with offset := val } }
    let s ← getS
    if s.tok = 0x2C then
      getToken
      ubUnless (decide (val + 1 < 2 ^ 31))
      go' go (.enums (val + 1))
    else pure ()

/-- `enum`, `scc.c:2701-2731`. -/
def parseEnum : A Unit := do
  getToken
  let s ← getS
  if tokId ≤ s.tok then getToken else pure ()
  let s ← getS
  if s.tok = 0x7B then
    getToken
    modS fun s => { s with ignoreRedef := s.ignoreRedef + 1 }
    go' go (.enums 0)
    expect 0x7D
    modS fun s => { s with ignoreRedef := s.ignoreRedef - 1 }
  else pure ()
  setType vtInt

/-- The specifiers of one token, `scc.c:2668-2699`: the type and the flags. -/
def simpleSpec (tok type flags : Nat) : Option (Nat × Nat) :=
  if tok = tokVoid then some (vtVoid, flags)
  else if tok = tokChar then some (vtChar, flags)
  else if tok = tokShort ∨ tok = tokInt then some (vtInt, flags)
  else if tok = tokVaList then some (vtChar ||| vtPtr1, flags)
  else if tok = tokAuto ∨ tok = tokConst ∨ tok = tokExtern ∨ tok = tokRegister ∨ tok = tokVolatile then some (type, flags)
  else if tok = tokStatic then some (type, flags ||| vtStatic)
  else if tok = tokSigned then some (type, clr flags vtUnsigned)
  else if tok = tokTypedef then some (type, flags ||| vtTypedef)
  else if tok = tokUnsigned then some (type, flags ||| vtUnsigned)
  else none

/-- A round of the loop of `ParseDeclSpecs`, `scc.c:2666-2803`. -/
def parseSpecs (flags : Nat) : A Unit := do
  let s ← getS
  match simpleSpec s.tok s.type flags with
  | some (type, flags) =>
    setType type
    getToken
    go' go (.specs flags)
  | none =>
    if s.tok = tokEnum then
      parseEnum go
      go' go (.specs flags)
    else if s.tok = tokStruct ∨ s.tok = tokUnion then
      parseStruct go
      go' go (.specs flags)
    else
      match lookupTypedef s with
      | some vd =>
        setType (clr vd.type vtTypedef)
        setExtra vd.extra
        getToken
        go' go (.specs flags)
      | none => setType (s.type ||| flags)

/-- `ParseDeclSpecs`, `scc.c:2661-2804`. -/
def parseDeclSpecs : A Unit := do
  setType vtInt
  go' go (.specs 0)

/-- `*Id = id`. -/
def putId (dest : Dest) (id : Int) : A Unit :=
  match dest with
  | .none => pure ()
  | .ret => pure ()
  | .member k => modS fun s => { s with members := s.members.set k { s.members.get k with id := id } }
  | .arg k => modS fun s => { s with args := s.args.set k { s.args.get k with id := id } }

/-- A round of the loop over the parameters, `scc.c:2850-2868`. -/
def parseParams : A Unit := do
  let s ← getS
  if s.tok = 0x29 then pure ()
  else if s.tok = tokEllipsis then getToken
  else
    go' go .declSpecs
    let s ← getS
    if s.tok = 0x29 then pure ()
    else
      failIf (s.argsCount == argsMax)
      let k := s.argsCount
      modS fun s => { s with argsCount := k + 1 }
      go' go (.declarator (.arg k))
      modS fun s => { s with args := s.args.set k { s.args.get k with type := s.type, extra := s.extra } }
      let s ← getS
      if s.tok = 0x2C then
        getToken
        go' go .params
      else pure ()

/-- The bounds are moved inwards, `scc.c:2900-2906`. -/
def moveBounds : Nat → Nat → A Unit
  | 0, _ => fail .fuel
  | n + 1, a => do
    let s ← getS
    let ad := s.arrays.get a
    if ad.type = vtArray then
      let b ← arrayAt ad.extra
      let bd := s.arrays.get b
      modS fun s => { s with arrays := (s.arrays.set a { ad with bound := bd.bound }).set b { bd with bound := ad.bound } }
      moveBounds n b
    else pure ()

/-- A round of the loop over the array bounds, `scc.c:2875-2907`. -/
def parseBounds : A Unit := do
  let s ← getS
  if s.tok ≠ 0x5B then pure ()
  else
    getToken
    failIf (s.arrayCount == arrayMax)
    let a := s.arrayCount
    let f := s.type &&& vtStatic
    modS fun s => { s with arrays := s.arrays.set a { s.arrays.get a with type := clr s.type vtStatic, extra := s.extra } }
    let s ← getS
    if s.tok ≠ 0x5D then
      go' go .expr
      let s ← getS
      failIf (s.type != vtInt ||| vtLocLit)
      failIf (decide (s.val ≤ 0))
      modS fun s => { s with arrays := s.arrays.set a { s.arrays.get a with bound := s.val.toNat } }
    else modS fun s => { s with arrays := s.arrays.set a { s.arrays.get a with bound := 0 } }
    expect 0x5D
    modS fun s => { s with type := vtArray ||| f, extra := s.arrayCount, arrayCount := s.arrayCount + 1 }
    moveBounds 40 a
    go' go .bounds

/-- The identifier of a declarator, `scc.c:2830-2837`. -/
def declId (dest : Dest) : A Int := do
  match dest with
  | .none => pure (-1)
  | _ =>
    let s ← getS
    if tokId ≤ s.tok then
      let id : Int := (s.tok - tokKeyword : Nat)
      putId dest id
      getToken
      pure id
    else
      putId dest (-1)
      pure (-1)

/-- `ParseDeclarator` after the pointers, `scc.c:2821-2907`. -/
def declRest (dest : Dest) : A Int := do
  let s ← getS
  let isFunPtr := s.tok = 0x28
  if isFunPtr then
    getToken
    expect 0x2A
    modS fun s => { s with type := s.type ||| vtFunPtr }
  else pure ()
  let id ← declId dest
  if isFunPtr then expect 0x29 else pure ()
  let s ← getS
  if s.tok = 0x28 then
    getToken
    modS fun s => { s with argsCount := 0 }
    go' go .params
    expect 0x29
    modS fun t => { t with type := s.type ||| vtFun, extra := s.extra }
  else go' go .bounds
  pure id

/-- `ParseDeclarator`, `scc.c:2806-2908`; the value is the identifier. -/
def parseDeclarator (dest : Dest) : A Int := do
  let s ← getS
  if s.tok = 0x2A then
    getToken
    modS fun s => { s with type := s.type + vtPtr1 }
    go (.declarator dest)
  else if s.tok = tokConst ∨ s.tok = tokVolatile then
    getToken
    go (.declarator dest)
  else declRest go dest

/-- `DoDecl`, `scc.c:2916-2922`. -/
def doDecl : A Nat := do
  let id ← go (.declarator .ret)
  failIf (decide (id < 0))
  addVarDecl id

/-- `ParseFirstDecl`, `scc.c:2924-2932`. -/
def parseFirstDecl : A (Option Nat) := do
  go' go .declSpecs
  let s ← getS
  if s.tok = 0x3B then pure none
  else
    let v ← doDecl go
    saveBaseType
    pure (some v)

/-- `NextDecl`, `scc.c:2935-2943`. -/
def nextDecl : A (Option Nat) := do
  let s ← getS
  if s.tok ≠ 0x2C then pure none
  else
    getToken
    modS fun s => { s with type := s.baseType, extra := s.baseExtra }
    let v ← doDecl go
    pure (some v)

/-! ## Statements, `scc.c:2945-3275` -/

/-- `DoLoopStatements`, `scc.c:2947-2962`. -/
def doLoopStatements (bLabel cLabel : Int) : A Unit := do
  let s ← getS
  modS fun s => { s with breakLabel := bLabel, contLabel := cLabel, bStack := s.localOffset, cStack := s.localOffset }
  go' go .stmt
  modS fun t => { t with breakLabel := s.breakLabel, contLabel := s.contLabel, bStack := s.bStack, cStack := s.cStack }

/-- `EnsureSwitchStmt`, `scc.c:2964-2971`. -/
def ensureSwitchStmt : A Unit := do
  let s ← getS
  if s.switchStmt < 0 then
    let l ← makeLabel
    modS fun s => { s with switchStmt := l }
    emitJmp l
  else pure ()

/-- A round of the loop of a block, `scc.c:2985-2987`. -/
def parseStmts : A Unit := do
  let s ← getS
  if s.tok = 0x7D then pure ()
  else
    go' go .stmt
    go' go .stmts

/-- A block, `scc.c:2977-2997`. -/
def parseBlock : A Unit := do
  let s ← getS
  pushScope
  expect 0x7B
  go' go .stmts
  getToken
  popScope
  modS fun t => { t with
    spAdj := t.spAdj + (s.localOffset - t.localOffset), localOffset := s.localOffset, memCount := s.memCount, structCount := s.structCount
    arrayCount := s.arrayCount }

/-- The values of consecutive `case`s, `scc.c:3012-3020`. -/
def parseCases : Nat → A (List Int)
  | 0 => pure []
  | n + 1 => do
    getToken
    go' go .expr
    expect 0x3A
    let s ← getS
    failIf (s.type != vtInt ||| vtLocLit)
    if s.tok = tokCase then
      let r ← parseCases n
      pure (s.val :: r)
    else pure [s.val]

/-- The comparisons with the values, `scc.c:3021-3033`. -/
def emitCases (next : Int) : List Int → A Unit
  | [] => pure ()
  | [c] => do
    output [0x3D]
    outputWord c
    emitJcc jNZ next
  | c :: cs => do
    output [0x3D]
    outputWord c
    output [0x74, nb (cs.length * 5 + 3)]
    emitCases next cs

/-- The label `Stmt`, `scc.c:3047-3049`. -/
def switchStmtLabel : A Unit := do
  let s ← getS
  emitLocalLabel s.switchStmt
  modS fun s => { s with switchStmt := -1 }
  go' go .stmt

/-- `case`, `scc.c:3005-3035`. -/
def parseCase : A Unit := do
  ensureSwitchStmt
  let s ← getS
  emitLocalLabel s.switchCase
  let l ← makeLabel
  modS fun s => { s with switchCase := l }
  let cs ← parseCases go 24
  let s ← getS
  emitCases s.switchCase cs
  switchStmtLabel go

/-- `default`, `scc.c:3037-3042`. -/
def parseDefault : A Unit := do
  getToken
  expect 0x3A
  let s ← getS
  failIf (decide (s.switchDef ≠ -1))
  ensureSwitchStmt
  modS fun s => { s with switchDef := s.switchStmt }
  go' go .stmt

/-- The label `GetSemicolon`, `scc.c:3074-3078`. -/
def getSemicolon : A Unit := do
  let s ← getS
  if s.tok ≠ 0x3B then expect 0x3B else pure ()
  getToken

/-- `return`, `scc.c:3061-3073`. -/
def parseReturn : A Unit := do
  getToken
  let s ← getS
  if s.tok ≠ 0x3B then
    go' go .expr
    getVal
  else pure ()
  let s ← getS
  if s.localOffset ≠ 0 then
    if s.returnLabel < 0 then
      let l ← makeLabel
      modS fun s => { s with returnLabel := l }
    else pure ()
    let s ← getS
    emitJmp s.returnLabel
  else
    output [0x5D, 0xC3]
    setDead true
  getSemicolon

/-- `if`, `scc.c:3100-3117`. -/
def parseIf : A Unit := do
  getToken
  let elseLabel ← makeLabel
  expect 0x28
  doCond go elseLabel true
  expect 0x29
  go' go .stmt
  let s ← getS
  if s.tok = tokElse then
    getToken
    let endLabel ← makeLabel
    emitJmp endLabel
    emitLocalLabel elseLabel
    go' go .stmt
    emitLocalLabel endLabel
  else emitLocalLabel elseLabel

/-- The third part of a `for`, `scc.c:3143-3149`: the label to go to after the body. -/
def forIter (condLabel bodyLabel : Nat) : A Nat := do
  let s ← getS
  if s.tok ≠ 0x29 then
    emitJmp bodyLabel
    let l ← makeLabel
    emitLocalLabel l
    go' go .expr
    emitJmp condLabel
    pure l
  else pure condLabel

/-- `for`, `scc.c:3120-3156`. -/
def parseFor : A Unit := do
  getToken
  let condLabel ← makeLabel
  let bodyLabel ← makeLabel
  let endLabel ← makeLabel
  expect 0x28
  let s ← getS
  if s.tok ≠ 0x3B then go' go .expr else pure ()
  expect 0x3B
  emitLocalLabel condLabel
  let s ← getS
  if s.tok ≠ 0x3B then doCond go endLabel true else pure ()
  expect 0x3B
  let iterLabel ← forIter go condLabel bodyLabel
  expect 0x29
  emitLocalLabel bodyLabel
  doLoopStatements go endLabel iterLabel
  emitJmp iterLabel
  emitLocalLabel endLabel

/-- `while`, `scc.c:3159-3170`. -/
def parseWhile : A Unit := do
  getToken
  let startLabel ← makeLabel
  let endLabel ← makeLabel
  emitLocalLabel startLabel
  expect 0x28
  doCond go endLabel true
  expect 0x29
  doLoopStatements go endLabel startLabel
  emitJmp startLabel
  emitLocalLabel endLabel

/-- `do`, `scc.c:3173-3187`. -/
def parseDo : A Unit := do
  getToken
  let startLabel ← makeLabel
  let condLabel ← makeLabel
  let endLabel ← makeLabel
  emitLocalLabel startLabel
  doLoopStatements go endLabel condLabel
  emitLocalLabel condLabel
  expect tokWhile
  expect 0x28
  doCond go startLabel false
  expect 0x29
  emitLocalLabel endLabel
  getSemicolon

/-- The end of a `switch`, `scc.c:3207-3220`. -/
def finishSwitch : A Unit := do
  let s ← getS
  if 0 ≤ s.switchDef then
    ensureSwitchStmt
    let s ← getS
    emitLocalLabel s.switchCase
    emitJmp s.switchDef
  else emitLocalLabel s.switchCase
  let s ← getS
  if 0 ≤ s.switchStmt then emitLocalLabel s.switchStmt else pure ()
  emitLocalLabel s.breakLabel

/-- `switch`, `scc.c:3189-3227`. -/
def parseSwitch : A Unit := do
  getToken
  expect 0x28
  go' go .expr
  getVal
  expect 0x29
  let s ← getS
  modS fun s => { s with bStack := s.localOffset }
  let bl ← makeLabel
  let sc ← makeLabel
  let ss ← makeLabel
  modS fun s => { s with breakLabel := bl, switchCase := sc, switchStmt := ss, switchDef := -1 }
  go' go .stmt
  finishSwitch
  modS fun t => { t with
    switchCase := s.switchCase, switchStmt := s.switchStmt, switchDef := s.switchDef, bStack := s.bStack, breakLabel := s.breakLabel }

/-- A local variable, `scc.c:3235-3253`. -/
def localVar (v : Nat) : A Unit := do
  let size ← sizeofCurrentType
  let s ← getS
  if s.type &&& vtStatic ≠ 0 then
    modS fun s => { s with
      vars := s.vars.set v { s.vars.get v with type := clr s.type vtStatic ||| vtLocGlob }, bss := s.bss + size }
  else
    modS fun s => { s with vars := s.vars.set v { s.vars.get v with type := (s.vars.get v).type ||| vtLocOff } }
    let size := (size + 1) / 2 * 2
    if s.tok = 0x3D then
      getToken
      go' go .assign
      getVal
      output [0x50]
    else modS fun s => { s with spAdj := s.spAdj - size }
    modS fun s => { s with
      localOffset := s.localOffset - size, vars := s.vars.set v { s.vars.get v with offset := s.localOffset - size } }

/-- A round of the loop over local variables, `scc.c:3234-3255`. -/
def parseLocals (v : Nat) : A Unit := do
  localVar go v
  let w ← nextDecl go
  match w with
  | some w => go' go (.locals w)
  | none => pure ()

/-- A statement that begins with an identifier that is no type, `scc.c:3258-3270`. -/
def parseIdStmt : A Unit := do
  let s ← getS
  setVal (s.tok - tokKeyword : Nat)
  getToken
  let s ← getS
  if s.tok = 0x3A then
    getToken
    let l ← getNamedLabel s.val
    emitLocalLabel l
    let s ← getS
    emitModrm 0x8D rSP vtLocOff s.localOffset
    go' go .stmt
  else
    handlePrimaryId
    go' go .postfix
    let s ← getS
    if s.prec ≤ precComma then go' go (.expr1 precComma) else pure ()
    getSemicolon

/-- Declarations and expressions, `scc.c:3231-3274`. -/
def parseSimple : A Unit := do
  let s ← getS
  if isTypeStart s then
    let v ← parseFirstDecl go
    match v with
    | some v => go' go (.locals v)
    | none => pure ()
    getSemicolon
  else if tokId ≤ s.tok then parseIdStmt go
  else
    go' go .expr
    getSemicolon

/-- Statements that begin with a keyword, and others, `scc.c:3053-3274`. -/
def parseKeyword : A Unit := do
  let s ← getS
  if s.tok = 0x3B then getToken
  else if s.tok = tokReturn then parseReturn go
  else if s.tok = tokBreak then
    getToken
    modS fun s => { s with spAdj := s.spAdj + (s.bStack - s.localOffset) }
    let s ← getS
    emitJmp s.breakLabel
    getSemicolon
  else if s.tok = tokContinue then
    getToken
    modS fun s => { s with spAdj := s.spAdj + (s.cStack - s.localOffset) }
    let s ← getS
    emitJmp s.contLabel
    getSemicolon
  else if s.tok = tokGoto then
    getToken
    let id ← expectId
    let l ← getNamedLabel id
    emitJmp l
    getSemicolon
  else if s.tok = tokEmit then
    getToken
    go' go .expr
    let s ← getS
    failIf (s.type != vtInt ||| vtLocLit)
    output [lo s.val]
  else if s.tok = tokIf then parseIf go
  else if s.tok = tokFor then parseFor go
  else if s.tok = tokWhile then parseWhile go
  else if s.tok = tokDo then parseDo go
  else if s.tok = tokSwitch then parseSwitch go
  else parseSimple go

/-- `ParseStatement`, `scc.c:2973-3275`. -/
def parseStatement : A Unit := do
  let s ← getS
  if s.tok = 0x7B then parseBlock go
  else if 0 ≤ s.switchCase ∧ s.tok = tokCase then parseCase go
  else if 0 ≤ s.switchCase ∧ s.tok = tokDefault then parseDefault go
  else if 0 ≤ s.switchCase ∧ 0 ≤ s.switchStmt then
    emitJmp s.switchCase
    switchStmtLabel go
  else parseKeyword go

/-! ## The program, `scc.c:3284-3475` -/

/-- The parameters, `scc.c:3303-3309`. -/
def addParams : Nat → Nat → A Unit
  | 0, _ => pure ()
  | n + 1, i => do
    modS fun s => { s with type := (s.args.get i).type ||| vtLocOff, extra := (s.args.get i).extra }
    let s ← getS
    let v ← addVarDecl (s.args.get i).id
    modS fun s => { s with vars := s.vars.set v { s.vars.get v with offset := (4 + i * 2 : Nat) } }
    addParams n (i + 1)

/-- `memset(&VarDecls[Scopes[0]], -1, …)`, `scc.c:3299`: only the identifiers are used. -/
def reserve : Nat → Nat → A Unit
  | 0, _ => pure ()
  | n + 1, v => do
    ubUnless (v < varDeclMax)
    modS fun s => { s with vars := s.vars.set v { s.vars.get v with id := -1 } }
    reserve n (v + 1)

/-- The scope of a function, `scc.c:3299-3309`. -/
def openFunction : A Unit := do
  let s ← getS
  reserve globalReserve (s.scopes.get 0)
  modS fun s => { s with scopes := s.scopes.set 0 (s.scopes.get 0 + globalReserve), log := .reserve :: s.log }
  pushScope
  modS fun s => { s with scopes := s.scopes.set 0 (s.scopes.get 0 - globalReserve) }
  let s ← getS
  addParams s.argsCount 0

/-- A function definition, `scc.c:3297-3331`. -/
def parseFunction (v : Nat) : A Unit := do
  openFunction
  let s ← getS
  failIf (s.labelCount != 0)
  modS fun s => { s with localOffset := 0, returnLabel := -1, breakLabel := -1, contLabel := -1 }
  emitGlobalLabel v
  output [0x55]
  emitMovRR rBP rSP
  go' go .stmt
  let s ← getS
  if 0 ≤ s.returnLabel then
    emitLocalLabel s.returnLabel
    emitMovRR rSP rBP
  else pure ()
  output [0x5D, 0xC3]
  modS fun s => { s with labelCount := 0, namedCount := 0 }
  popScope

/-- A string as the value of a global array, `scc.c:3348-3353`. -/
def initString (v : Nat) : A Unit := do
  let s ← getS
  let a ← arrayAt (s.vars.get v).extra
  let ad := s.arrays.get a
  failIf (clr ad.type vtUnsigned != vtChar)
  failIf (ad.bound != 0)
  let b ← arrayAt s.extra
  modS fun s => { s with arrays := s.arrays.set a { ad with bound := (s.arrays.get b).bound } }
  failIf (decide (s.extra ≠ s.arrayCount - 1))
  modS fun s => { s with arrayCount := s.arrayCount - 1 }

/-- A round of the loop over global variables, `scc.c:3334-3363`. -/
def parseGlobals (v : Nat) : A Unit := do
  modS fun s => { s with vars := s.vars.set v { s.vars.get v with type := (s.vars.get v).type ||| vtLocGlob } }
  let s ← getS
  if s.tok = 0x3D then
    getToken
    emitGlobalLabel v
    go' go .assign
    let s ← getS
    if s.type = vtInt ||| vtLocLit then outputWord s.val
    else if s.type = vtLval ||| vtArray then initString v
    else fail .fatal
  else
    let n ← sizeofCurrentType
    modS fun s => { s with bss := s.bss + n }
  let w ← nextDecl go
  match w with
  | some w => go' go (.globals w)
  | none => pure ()

/-- `ParseExternalDefition`, `scc.c:3284-3367`. -/
def parseExternal : A Unit := do
  let v ← parseFirstDecl go
  match v with
  | none => expect 0x3B
  | some v =>
    modS fun s => { s with vars := s.vars.set v { s.vars.get v with type := clr (s.vars.get v).type vtStatic } }
    let s ← getS
    if (s.vars.get v).type &&& vtFun ≠ 0 then
      modS fun s => { s with vars := s.vars.set v { s.vars.get v with type := (s.vars.get v).type ||| vtLocGlob } }
      if s.tok ≠ 0x7B then expect 0x3B else parseFunction go v
    else
      go' go (.globals v)
      expect 0x3B

/-- A task for its effect. -/
def unit0 (x : A Unit) : A Int := do
  x
  pure 0

/-- What a task does. -/
def step : Task → A Int
  | .expr => unit0 (parseExpr go precComma)
  | .assign => unit0 (parseExpr go precAssign)
  | .expr1 outer => unit0 (parseExpr1 go outer)
  | .rhs prec => unit0 (parseRhs go prec)
  | .cast => unit0 (parseCast go)
  | .unary => unit0 (parseUnary go)
  | .postfix => unit0 (parsePostfix go)
  | .args size => parseArgs go size
  | .primary => unit0 (parsePrimary go)
  | .declSpecs => unit0 (parseDeclSpecs go)
  | .specs flags => unit0 (parseSpecs go flags)
  | .enums val => unit0 (parseEnums go val)
  | .members si last => parseMembers go si last
  | .memberList si last => parseMemberList go si last
  | .declarator dest => parseDeclarator go dest
  | .params => unit0 (parseParams go)
  | .bounds => unit0 (parseBounds go)
  | .stmt => unit0 (parseStatement go)
  | .stmts => unit0 (parseStmts go)
  | .locals v => unit0 (parseLocals go v)
  | .globals v => unit0 (parseGlobals go v)

end

/-- The parser with a bound on the depth of the recursion. -/
def run : Nat → Task → A Int
  | 0, _ => fail .fuel
  | n + 1, t => step (run n) t

/-- The loop of `main`, `scc.c:3443-3444`. -/
def externals (n : Nat) : Nat → A Unit
  | 0 => fail .fuel
  | k + 1 => do
    let s ← getS
    if s.tok = 0 then pure ()
    else
      parseExternal (run n)
      externals n k

/-- The words of `AddBuiltins`, `scc.c:3391-3397`. -/
def builtins : List String :=
  ["auto", "break", "case", "char", "const", "continue", "default", "do", "double", "else", "enum", "extern", "float", "for", "goto", "if",
   "int", "long", "register", "return", "short", "signed", "sizeof", "static", "struct", "switch", "typedef", "union", "unsigned", "void",
   "volatile", "while", "va_list", "va_start", "va_end", "va_arg", "_emit", "_start", "_SBSS", "_EBSS"]

/-- `while (IdHashTab[Hash &= ID_HASHMAX-1] != -1) ++Hash;`. -/
def freeSlot (tab : Tab (Option Nat) 10) : Nat → Nat → Nat
  | 0, h => h
  | n + 1, h => if (tab.get h).isSome then freeSlot tab n ((h + 1) % idHashMax) else h

/-- One word of `AddBuiltins`, `scc.c:3400-3406`. -/
def addBuiltin (s : S) (w : List Byte) : S :=
  { s with
    idText := s.idText.set s.idCount w
    idHash := s.idHash.set (freeSlot s.idHash idHashMax (hashOf w)) (some s.idCount)
    idCount := s.idCount + 1 }

/-- The globals at the start of `main`. -/
def init (src : List Byte) : S :=
  { cur := 0, inp := src, tok := 0, num := 0, str := 0, prec := 0, idPos := 0, idText := .const [] 10, idHash := .const none 10
    idCount := 0, members := .const ⟨0, 0, 0, none⟩ 5, memCount := 0, structs := .const ⟨0, none⟩ 3, structCount := 0
    arrays := .const ⟨0, 0, 0⟩ 5, arrayCount := 0, vars := .const ⟨0, 0, 0, 0, 0, none⟩ 9, lookup := .const none 10, ignoreRedef := 0
    scopes := .const 0 4, scopeCount := 1, labels := .const ⟨0, 0⟩ 9, labelCount := 0, named := .const ⟨0, 0⟩ 3, namedCount := 0
    args := .const ⟨0, 0, 0⟩ 3, argsCount := 0, localOffset := 0, bStack := 0, cStack := 0, returnLabel := 0, breakLabel := 0
    contLabel := 0, type := 0, val := 0, extra := 0, isUnsigned := false, baseType := 0, baseExtra := 0, spAdj := 0, push := false
    regUse := false, lastZF := 0, lastFixup := 0, dead := false, switchCase := -1, switchStmt := 0, switchDef := 0, code := codeStart
    bss := 0, out := .const 0 15, map := #[], log := [] }

/-- `main` until the first token, `scc.c:3426-3442`. -/
def prelude : A Unit := do
  modS fun s => (builtins.map asc).foldl addBuiltin s
  output [0x31, 0xED]
  output [0xE9]
  setType (vtFun ||| vtVoid ||| vtLocGlob)
  let v ← addVarDecl (tokStart - tokKeyword : Nat)
  emitGlobalRefRel v
  setType (vtChar ||| vtLocGlob)
  let _ ← addVarDecl (tokSbss - tokKeyword : Nat)
  let _ ← addVarDecl (tokEbss - tokKeyword : Nat)
  getToken

/-- The indices of `_SBSS` and `_EBSS`. -/
abbrev vSbss : Nat := 1
abbrev vEbss : Nat := 2

/-- The addresses of variables without initial value, `scc.c:3451-3460`. -/
def placeVars : Nat → Nat → A Unit
  | 0, _ => pure ()
  | n + 1, v => do
    modS fun s => { s with type := (s.vars.get v).type }
    let s ← getS
    if s.type &&& vtLocMask ≠ vtLocGlob ∨ (s.vars.get v).offset ≠ 0 ∨ v = vEbss then pure ()
    else
      failIf (s.type &&& vtFun != 0)
      emitGlobalLabel v
      let k ← sizeofType sizeFuel s.type (s.vars.get v).extra
      modS fun s => { s with code := s.code + k }
    placeVars n (v + 1)

/-- `main` after the last token, `scc.c:3446-3462`. -/
def finish : A Unit := do
  let s ← getS
  failIf (s.scopeCount != 1)
  emitGlobalLabel vSbss
  let s ← getS
  placeVars (s.scopes.get 0) 0
  let s ← getS
  failIf (decide ((s.code : Int) - (s.vars.get vSbss).offset ≠ s.bss))
  emitGlobalLabel vEbss
  let s ← getS
  ubUnless (decide (codeStart + s.bss ≤ s.code ∧ s.code ≤ codeStart + s.bss + outputMax))

/-- `main`, `scc.c:3411-3475`, with a bound on the depth of the recursion of the parser and the number of external definitions. -/
def program (n : Nat) : A Unit := do
  prelude
  externals n n
  finish

/-- The bytes of the program written at the end, `scc.c:3471`. -/
def image (s : S) : List Byte := (List.range (s.code - s.bss - codeStart)).map s.out.get

/-- The whole compiler: the bytes of the program and of the map file. -/
def compile (n : Nat) (src : List Byte) : Except Err (List Byte × Array Byte) :=
  match program n (init src) with
  | .ok _ s => .ok (image s, s.map)
  | .err e => .error e

end Scc
