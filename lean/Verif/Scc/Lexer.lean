import Verif.Util.Prog
import Verif.Util.Text
import Verif.Util.Tab
import Verif.Mem
/-!
# Model of the compiler `scc.c`: state and tokenizer

Model of `/repo/scc.c` as built for a host with 32-bit `int` and signed `char`.

Simplifications, for the whole model:
* The input is the list of the characters not yet read, without the buffer `InBuf` (`Verif/Input/Model.lean` and `C44` deal with the buffer); the file contains no NUL.
* The line number, which is only printed, and the text of messages are left out; `Fatal` and `Fail` are the outcome `fatal`.
* Pointers into arrays are indices; strings of identifiers are values (the space they take in `IdBuffer` is kept track of).
* `Pending` is two fields, the bit `PENDING_PUSHAX` and the rest (all values added to `Pending` are even).
* `int`s that hold addresses, counts or types are `Nat`s; others are `Int`s, and overflow of `int` in the evaluation of constants is the outcome `ub`.
* Accesses outside of arrays are the outcome `ub`.
-/
namespace Scc
open Prog Text

/-! ## Constants, `scc.c:161-296` -/

abbrev codeStart : Nat := 0x100
abbrev scopeMax : Nat := 16
abbrev varDeclMax : Nat := 380
abbrev idMax : Nat := 580
abbrev idHashMax : Nat := 1024
abbrev idBufferMax : Nat := 5000
abbrev labelMax : Nat := 320
abbrev namedLabelMax : Nat := 8
abbrev outputMax : Nat := 0x6000
abbrev structMax : Nat := 8
abbrev structMemberMax : Nat := 32
abbrev arrayMax : Nat := 32
abbrev globalReserve : Nat := 4
abbrev argsMax : Nat := 8

abbrev vtVoid : Nat := 0
abbrev vtBool : Nat := 1
abbrev vtChar : Nat := 2
abbrev vtInt : Nat := 3
abbrev vtStruct : Nat := 4
abbrev vtArray : Nat := 5
abbrev vtBaseMask : Nat := 7
abbrev vtUnsigned : Nat := 8
abbrev vtLval : Nat := 16
abbrev vtFun : Nat := 32
abbrev vtFunPtr : Nat := 96
abbrev vtPtr1 : Nat := 128
abbrev vtPtrMask : Nat := 384
abbrev vtLocLit : Nat := 512
abbrev vtLocOff : Nat := 1024
abbrev vtLocGlob : Nat := 1536
abbrev vtLocMask : Nat := 1536
abbrev vtStatic : Nat := 2048
abbrev vtTypedef : Nat := 4096

/-- `t & ~m`. -/
def clr (t m : Nat) : Nat := t ^^^ (t &&& m)

abbrev tokEof : Nat := 0
abbrev tokNum : Nat := 1
abbrev tokStrLit : Nat := 2
abbrev tokEqEq : Nat := 128
abbrev tokNotEq : Nat := 129
abbrev tokLtEq : Nat := 130
abbrev tokGtEq : Nat := 131
abbrev tokPlusPlus : Nat := 132
abbrev tokMinusMinus : Nat := 133
abbrev tokAndAnd : Nat := 134
abbrev tokOrOr : Nat := 135
abbrev tokLsh : Nat := 136
abbrev tokRsh : Nat := 137
abbrev tokPlusEq : Nat := 138
abbrev tokMinusEq : Nat := 139
abbrev tokStarEq : Nat := 140
abbrev tokSlashEq : Nat := 141
abbrev tokModEq : Nat := 142
abbrev tokLshEq : Nat := 143
abbrev tokRshEq : Nat := 144
abbrev tokAndEq : Nat := 145
abbrev tokXorEq : Nat := 146
abbrev tokOrEq : Nat := 147
abbrev tokEllipsis : Nat := 148
abbrev tokArrow : Nat := 149
abbrev tokKeyword : Nat := 150
abbrev tokAuto : Nat := 150
abbrev tokBreak : Nat := 151
abbrev tokCase : Nat := 152
abbrev tokChar : Nat := 153
abbrev tokConst : Nat := 154
abbrev tokContinue : Nat := 155
abbrev tokDefault : Nat := 156
abbrev tokDo : Nat := 157
abbrev tokElse : Nat := 159
abbrev tokEnum : Nat := 160
abbrev tokExtern : Nat := 161
abbrev tokFor : Nat := 163
abbrev tokGoto : Nat := 164
abbrev tokIf : Nat := 165
abbrev tokInt : Nat := 166
abbrev tokRegister : Nat := 168
abbrev tokReturn : Nat := 169
abbrev tokShort : Nat := 170
abbrev tokSigned : Nat := 171
abbrev tokSizeof : Nat := 172
abbrev tokStatic : Nat := 173
abbrev tokStruct : Nat := 174
abbrev tokSwitch : Nat := 175
abbrev tokTypedef : Nat := 176
abbrev tokUnion : Nat := 177
abbrev tokUnsigned : Nat := 178
abbrev tokVoid : Nat := 179
abbrev tokVolatile : Nat := 180
abbrev tokWhile : Nat := 181
abbrev tokVaList : Nat := 182
abbrev tokVaStart : Nat := 183
abbrev tokVaEnd : Nat := 184
abbrev tokVaArg : Nat := 185
abbrev tokEmit : Nat := 186
abbrev tokId : Nat := 187
abbrev tokStart : Nat := 187
abbrev tokSbss : Nat := 188
abbrev tokEbss : Nat := 189

abbrev precAssign : Nat := 14
abbrev precComma : Nat := 15
abbrev precStop : Nat := 100

/-! ## State, `scc.c:298-423` -/

structure Label where
  addr : Nat
  ref : Nat

structure NamedLabel where
  id : Int
  label : Nat

structure StructMember where
  id : Int
  type : Nat
  extra : Int
  next : Option Nat

/-- `Id` includes `IS_UNION_FLAG`; `Members` is an index. -/
structure StructDecl where
  id : Nat
  members : Option Nat

structure ArrayDecl where
  bound : Nat
  type : Nat
  extra : Int

structure VarDecl where
  id : Int
  type : Nat
  extra : Int
  offset : Int
  ref : Nat
  prev : Option Nat

structure Argument where
  id : Int
  type : Nat
  extra : Int

/-- Ghost: an event of the scopes. `decl id v`: the name `id` is declared in the innermost scope, in record `v`. `late id v`: a global
declaration made in a function, in record `v` (`id` is `-2` for a static variable). `use id v`: the name `id` is used and stands for record
`v`. `push`, `pop`: a scope begins, ends. `reserve`: records for `late` are set aside for the function whose scope begins next. -/
inductive Ev
  | decl (id : Int) (v : Nat)
  | late (id : Int) (v : Nat)
  | use (id : Int) (v : Option Nat)
  | push
  | pop
  | reserve
deriving DecidableEq, Repr

/-- The globals. -/
structure S where
  /-- `CurChar` and the characters after it. -/
  cur : Byte
  inp : List Byte
  /-- `TokenType`, `TokenNumVal`, `TokenStrLit` (as a position in `Output`), `OperatorPrecedence`. -/
  tok : Nat
  num : Int
  str : Nat
  prec : Nat
  /-- `IdBufPtr`, `IdText`, `IdHashTab`, `IdCount`. -/
  idPos : Nat
  idText : Tab (List Byte) 10
  idHash : Tab (Option Nat) 10
  idCount : Nat
  members : Tab StructMember 5
  memCount : Nat
  structs : Tab StructDecl 3
  structCount : Nat
  arrays : Tab ArrayDecl 5
  arrayCount : Nat
  vars : Tab VarDecl 9
  lookup : Tab (Option Nat) 10
  ignoreRedef : Nat
  scopes : Tab Nat 4
  scopeCount : Nat
  labels : Tab Label 9
  labelCount : Nat
  named : Tab NamedLabel 3
  namedCount : Nat
  args : Tab Argument 3
  argsCount : Nat
  localOffset : Int
  bStack : Int
  cStack : Int
  returnLabel : Int
  breakLabel : Int
  contLabel : Int
  type : Nat
  val : Int
  extra : Int
  isUnsigned : Bool
  baseType : Nat
  baseExtra : Int
  /-- `Pending`. -/
  spAdj : Int
  push : Bool
  regUse : Bool
  lastZF : Nat
  lastFixup : Nat
  dead : Bool
  switchCase : Int
  switchStmt : Int
  switchDef : Int
  /-- `CodeAddress`, `BssSize`, `Output`, the file `MapFile`. -/
  code : Nat
  bss : Nat
  out : Mem 15
  map : Array Byte
  /-- Ghost: the events of the scopes, the last one first. Nothing in the model reads it. -/
  log : List Ev

abbrev A := M S

def failIf (b : Bool) : A Unit := if b then fail .fatal else pure ()

/-! ## Tokenizer, `scc.c:538-924` -/

/-- The text from the current character on: nothing at the end of the file. -/
def setText (l : List Byte) : A Unit := modS fun s => { s with cur := l.headD 0, inp := l.tail }

/-- `NextChar`, `scc.c:542-554`. -/
def nextChar : A Unit := modS fun s => { s with cur := s.inp.headD 0, inp := s.inp.tail }

/-- Where `SkipWhitespace` is: between tokens, in a line to skip, in a comment (`star`). -/
inductive Skip | top | line | com (star : Bool)

/-- How `SkipWhitespace` ends: at a token, after a `/` that begins no comment, in a comment. -/
inductive Skipped | stop (l : List Byte) | slash (l : List Byte) | bad

/-- `SkipWhitespace`, `scc.c:556-618`. -/
def skip : Skip → List Byte → Skipped
  | .top, [] => .stop []
  | .top, [c] =>
    if c.toInt ≤ 0x20 then .stop []
    else if 0x2F < c.toInt then .stop [c]
    else if c = 0x2F then .slash []
    else if c = 0x23 then .stop []
    else .stop [c]
  | .top, c :: d :: r =>
    if c.toInt ≤ 0x20 then skip .top (d :: r)
    else if 0x2F < c.toInt then .stop (c :: d :: r)
    else if c = 0x2F then
      if d = 0x2F then skip .line r
      else if d = 0x2A then skip (.com false) r
      else .slash (d :: r)
    else if c = 0x23 then skip .line (d :: r)
    else .stop (c :: d :: r)
  | .line, [] => .stop []
  | .line, c :: r => if c = 0x0A then skip .top r else skip .line r
  | .com _, [] => .bad
  | .com star, c :: r => if star ∧ c = 0x2F then skip .top r else skip (.com (c == 0x2A)) r

/-- The digit of `GetNum`, `scc.c:624-626`, as an `unsigned`: a negative number stands for a large one. -/
def digit (c : Byte) : Int :=
  let d := c.toInt - 0x30
  if 0 ≤ d ∧ d ≤ 9 then d else (c.toNat &&& 0xDF : Nat) - (0x41 - 10)

/-- `GetNum`, `scc.c:620-632`, modulo `2^32`. -/
def getNum (init base : Nat) : Nat → A Nat
  | 0 => pure init
  | n + 1 => do
    let s ← getS
    let d := digit s.cur
    if d < 0 ∨ (base : Int) ≤ d then pure init
    else
      nextChar
      getNum ((init * base + d.toNat) % 2 ^ 32) base n

/-- Conversion to `int` and to `char`. -/
def int32 (n : Int) : Int := (BitVec.ofInt 32 n).toInt
def byteOf (n : Int) : Byte := BitVec.ofInt 8 n

/-- `Unescape`, `scc.c:634-649`. -/
def unescape : A Byte := do
  let s ← getS
  let c := s.cur
  nextChar
  if c = 0x6E then pure 0x0A
  else if c = 0x72 then pure 0x0D
  else if c = 0x74 then pure 0x09
  else if c = 0x27 then pure 0x27
  else if c = 0x22 then pure 0x22
  else if c = 0x5C then pure 0x5C
  else if c = 0x78 then
    let n ← getNum 0 16 2
    pure (byteOf n)
  else
    failIf (decide (c.toInt < 0x30 ∨ 0x37 < c.toInt))
    let n ← getNum (c.toInt - 0x30).toNat 8 2
    pure (byteOf n)

/-- `TokenStrLit[TokenNumVal++] = ch`. -/
def putStr (c : Byte) : A Unit := do
  let s ← getS
  let p := s.str + s.num.toNat
  ubUnless (p < outputMax)
  modS fun s => { s with out := s.out.set p c, num := s.num + 1 }

/-- `SkipWhitespace`; the result is the return value. -/
def skipWhitespace : A Bool := do
  let s ← getS
  match skip .top (s.cur :: s.inp) with
  | .stop l => do setText l; pure false
  | .slash l => do setText l; pure true
  | .bad => fail .fatal

/-- The loop of `GetStringLiteral`, `scc.c:656-673`. -/
def strLoop : Nat → A Unit
  | 0 => fail .fuel
  | n + 1 => do
    let s ← getS
    if s.cur = 0x22 then
      nextChar
      let _ ← skipWhitespace
      let s ← getS
      if s.cur = 0x22 then
        nextChar
        strLoop n
      else pure ()
    else
      failIf (s.cur == 0)
      nextChar
      if s.cur = 0x5C then
        let c ← unescape
        putStr c
      else putStr s.cur
      strLoop n

/-- `GetStringLiteral`, `scc.c:651-676`. -/
def getStringLiteral : A Unit := do
  modS fun s => { s with str := s.code + 64 - codeStart, num := 0 }
  let s ← getS
  strLoop (s.inp.length + 2)
  putStr 0
  let s ← getS
  failIf (decide ((outputMax : Int) < s.str + s.num))

/-- `IsIdChar`, `scc.c:678` (a table of bits): letters, digits, underscore. -/
def isIdChar (c : Byte) : Bool :=
  decide (0x30 ≤ c.toNat ∧ c.toNat ≤ 0x39 ∨ 0x41 ≤ c.toNat ∧ c.toNat ≤ 0x5A ∨ c.toNat = 0x5F ∨ 0x61 ≤ c.toNat ∧ c.toNat ≤ 0x7A)

/-- The hash of an identifier, `scc.c:712-714, 722`. -/
def hashOf (w : List Byte) : Nat := (w.foldl (fun h c => (h * 17 + c.toNat) % 2 ^ 32) 0) % idHashMax

/-- The search of an identifier, `scc.c:721-736`: the slot that is free or holds the identifier. -/
def probe (tab : Tab (Option Nat) 10) (txt : Tab (List Byte) 10) (w : List Byte) : Nat → Nat → Option (Nat × Option Nat)
  | 0, _ => none
  | n + 1, h =>
    match tab.get h with
    | none => some (h, none)
    | some i => if txt.get i = w then some (h, some i) else probe tab txt w n ((h + 1) % idHashMax)

/-- Identifiers, `scc.c:710-738`; `c` is the first character. -/
def getIdent (c : Byte) : A Unit := do
  let s ← getS
  let l := s.cur :: s.inp
  let w := c :: l.takeWhile isIdChar
  setText (l.dropWhile isIdChar)
  ubUnless (s.idPos + w.length + 1 ≤ idBufferMax)
  match probe s.idHash s.idText w idHashMax (hashOf w) with
  | none => fail .fuel
  | some (_, some i) => modS fun s => { s with tok := i + tokKeyword }
  | some (h, none) =>
    failIf (s.idCount == idMax)
    modS fun s => { s with
      tok := s.idCount + tokKeyword, idHash := s.idHash.set h (some s.idCount), idText := s.idText.set s.idCount w,
      idPos := s.idPos + w.length + 1, idCount := s.idCount + 1 }

def setTok (t p : Nat) : A Unit := modS fun s => { s with tok := t, prec := p }

/-- The operators, `scc.c:741-899`: first character and next character, token, precedence, characters used up. -/
def operator (t : Nat) (c : Byte) (inp : List Byte) : Option (Nat × Nat × Nat) :=
  let a : Nat := c.toNat
  if t = 0x3B ∨ t = 0x28 ∨ t = 0x29 ∨ t = 0x7B ∨ t = 0x7D ∨ t = 0x5B ∨ t = 0x5D ∨ t = 0x3A ∨ t = 0x7E ∨ t = 0 then some (t, precStop, 0)
  else if t = 0x3D then if a = 0x3D then some (tokEqEq, 7, 1) else some (t, precAssign, 0)
  else if t = 0x2C then some (t, precComma, 0)
  else if t = 0x3F then some (t, 13, 0)
  else if t = 0x21 then if a = 0x3D then some (tokNotEq, 7, 1) else some (t, precStop, 0)
  else if t = 0x3C then
    if a = 0x3D then some (tokLtEq, 6, 1)
    else if a = 0x3C then if inp.headD 0 = 0x3D then some (tokLshEq, precAssign, 2) else some (tokLsh, 5, 1)
    else some (t, 6, 0)
  else if t = 0x3E then
    if a = 0x3D then some (tokGtEq, 6, 1)
    else if a = 0x3E then if inp.headD 0 = 0x3D then some (tokRshEq, precAssign, 2) else some (tokRsh, 5, 1)
    else some (t, 6, 0)
  else if t = 0x26 then
    if a = 0x26 then some (tokAndAnd, 11, 1) else if a = 0x3D then some (tokAndEq, precAssign, 1) else some (t, 8, 0)
  else if t = 0x7C then
    if a = 0x7C then some (tokOrOr, 12, 1) else if a = 0x3D then some (tokOrEq, precAssign, 1) else some (t, 10, 0)
  else if t = 0x5E then if a = 0x3D then some (tokXorEq, precAssign, 1) else some (t, 9, 0)
  else if t = 0x2B then
    if a = 0x2B then some (tokPlusPlus, precStop, 1) else if a = 0x3D then some (tokPlusEq, precAssign, 1) else some (t, 4, 0)
  else if t = 0x2D then
    if a = 0x2D then some (tokMinusMinus, precStop, 1) else if a = 0x3E then some (tokArrow, precStop, 1)
    else if a = 0x3D then some (tokMinusEq, precAssign, 1) else some (t, 4, 0)
  else if t = 0x2A then if a = 0x3D then some (tokStarEq, precAssign, 1) else some (t, 3, 0)
  else if t = 0x2F then if a = 0x3D then some (tokSlashEq, precAssign, 1) else some (t, 3, 0)
  else if t = 0x25 then if a = 0x3D then some (tokModEq, precAssign, 1) else some (t, 3, 0)
  else if t = 0x2E then if a = 0x2E then if inp.headD 0 = 0x2E then some (tokEllipsis, precStop, 2) else none else some (t, precStop, 0)
  else none

/-- `switch (TokenType)` for operators. -/
def getOperator (t : Nat) : A Unit := do
  let s ← getS
  match operator t s.cur s.inp with
  | none => fail .fatal
  | some (t', p, k) =>
    setTok t' p
    setText ((s.cur :: s.inp).drop k)

/-- Numbers, `scc.c:696-708`; `c` is the first character. -/
def getNumber (c : Byte) : A Unit := do
  let s ← getS
  let d := c.toNat - 0x30
  if d = 0 then
    if s.cur &&& 0xDF = 0x58 then
      nextChar
      let n ← getNum 0 16 8
      modS fun s => { s with num := int32 n, tok := tokNum }
    else
      let n ← getNum 0 8 8
      modS fun s => { s with num := int32 n, tok := tokNum }
  else
    let n ← getNum d 10 8
    modS fun s => { s with num := int32 n, tok := tokNum }

/-- Character literals, `scc.c:900-910`. -/
def getCharLit : A Unit := do
  let s ← getS
  nextChar
  let v ← if s.cur = 0x5C then unescape else pure s.cur
  let s ← getS
  failIf (s.cur != 0x27)
  modS fun s => { s with num := v.toInt, tok := tokNum }
  nextChar

/-- `GetToken` from the first character of the token on, `scc.c:688-924`. -/
def getTokenAt : A Unit := do
  let s ← getS
  let c := s.cur
  nextChar
  modS fun s => { s with prec := precStop }
  if 0x30 ≤ c.toNat ∧ c.toNat ≤ 0x39 then getNumber c
  else if 0x41 ≤ c.toNat ∧ c.toNat &&& 0xDF ≤ 0x5A ∨ c = 0x5F then getIdent c
  else if c = 0x27 then getCharLit
  else if c = 0x22 then
    getStringLiteral
    modS fun s => { s with tok := tokStrLit }
  else getOperator c.toNat

/-- `GetToken`, `scc.c:680-924`. -/
def getToken : A Unit := do
  let s ← getS
  if s.cur.toInt ≤ 0x2F then
    let b ← skipWhitespace
    if b then getOperator 0x2F else getTokenAt
  else getTokenAt

end Scc
