import Verif.Util.Prog
import Verif.Util.Text
import Verif.Mem
/-!
# The preprocessor, `/repo/scpp.c`

The host build is modelled: `int` has 32 bits and `char` is signed.  The C globals are the fields of `S`.  Simplifications:

* `ReadChar` and the file buffers are modelled in `Verif.Input.Model` (`C29`); here a file is the list of the characters not
  yet read.  A file contains no NUL (`C29_nul_violated`).
* Pointers to text are a sum type (`Txt`): an offset in `TokenData`, `StrBuf`, a string literal (of the program or of its
  command line), a pointer to an `Argument` (the code casts those to `char*`), or an uninitialised pointer.
* `struct TokenList*` is the index of a node of `TokenListElems`, `struct Argument*` the index of an element of `Argument`.
* `TokenQueue` (a ring of 16 tokens) is a list of at most 16 tokens, `ReplaceStack` and `CondState` are lists with the top first.
* `OutputStr` appends to a list of bytes; its buffer is modelled in `Verif.Scpp.Output` (`C28`).
* Debug output is not modelled.  Out-of-bounds stores, reads of unterminated or uninitialised text, signed overflow and division
  by zero are the error `ub`.
-/
namespace Scpp
open Text Prog

/-! Limits, `scpp.c:286-298` and `scpp.c:413`. -/

abbrev idMax : Nat := 32
abbrev idHashMax : Nat := 128
abbrev tokenDataMax : Nat := 2048
abbrev maxNest : Nat := 10
abbrev condMax : Nat := 16
abbrev tokenListMax : Nat := 128
abbrev tokenQueueMax : Nat := 16
abbrev argumentMax : Nat := 32
abbrev filesMax : Nat := 4
abbrev strBufMax : Nat := 256
abbrev macroMax : Nat := 16

/-! Token numbers, `scpp.c:311-352`. -/

abbrev tokEof : Nat := 0
abbrev tokWs : Nat := 1
abbrev tokNl : Nat := 2
abbrev tokNum : Nat := 3
abbrev tokCharlit : Nat := 4
abbrev tokStrlit : Nat := 5
abbrev tokInvalidLit : Nat := 6
abbrev tokArg : Nat := 7
abbrev tokCreatedOp : Nat := 128
abbrev tokHashhash : Nat := 129
abbrev tokLteq : Nat := 130
abbrev tokGteq : Nat := 131
abbrev tokEqeq : Nat := 132
abbrev tokNoteq : Nat := 133
abbrev tokAndand : Nat := 134
abbrev tokOror : Nat := 135
abbrev tokRawId : Nat := 256
abbrev tokId : Nat := 257
abbrev tokDefine : Nat := 257
abbrev tokUndef : Nat := 258
abbrev tokIf : Nat := 259
abbrev tokIfdef : Nat := 260
abbrev tokIfndef : Nat := 261
abbrev tokElif : Nat := 262
abbrev tokElse : Nat := 263
abbrev tokEndif : Nat := 264
abbrev tokInclude : Nat := 265
abbrev tokLine : Nat := 266
abbrev tokError : Nat := 267
abbrev tokPragma : Nat := 268
abbrev tokDefined : Nat := 269
abbrev tokFile__ : Nat := 270
abbrev tokLine__ : Nat := 271
abbrev tokUserId : Nat := 273

/-- A `const char*`. -/
inductive Txt
  | data (off : Nat)
  | strBuf
  | lit (s : List Byte)
  | arg (i : Nat)
  | undef
  deriving DecidableEq

/-- `struct Token`, `scpp.c:382-385`. -/
structure Tok where
  ty : Nat
  txt : Txt

/-- `struct TokenList`, `scpp.c:393-396`. -/
structure Node where
  tok : Tok
  next : Option Nat

/-- `struct Argument`, `scpp.c:400-404`. -/
structure Arg where
  id : Nat
  next : Option Nat
  repl : Option Nat

/-- The field `Arguments` of a macro: a null pointer (object-like), the pointer value 1 (no parameters), or an argument. -/
inductive Params
  | none
  | empty
  | some (i : Nat)
  deriving DecidableEq

/-- `struct Macro`, `scpp.c:408-412`. -/
structure Macro where
  args : Params
  repl : Option Nat
  hide : Nat

/-- `struct ReplaceStackElem`, `scpp.c:416-420`. -/
structure RepElem where
  m : Option Nat
  tl : Option Nat
  stop : Bool

/-- The states of a conditional section, `scpp.c:423-427`. -/
inductive Cond
  | true
  | false
  | done
  deriving DecidableEq

/-- What is saved of the including file, `scpp.c:354-362` (`Filename`, `OldLine`, `LastChar` and the unread characters). -/
structure FileRec where
  name : Txt
  oldLine : Nat
  last : Byte
  rest : List Byte

/-- The globals of the preprocessor. -/
structure S where
  cur : Byte
  inp : List Byte
  line : Nat
  name : Txt
  oldLine : Nat
  files : List FileRec
  td : Mem 11
  tdPos : Nat
  tdNext : Nat
  idText : Nat → Txt
  idHash : Nat → Option Nat
  idCount : Nat
  tok : Tok
  hash : Nat
  queue : List Tok
  node : Nat → Node
  free : Option Nat
  arg : Nat → Arg
  argCount : Nat
  mac : Nat → Macro
  stack : List RepElem
  cond : List Cond
  strBuf : Mem 8
  out : Array Byte

abbrev A := M S

/-- A function changed at one place. -/
def upd {α : Type} (f : Nat → α) (i : Nat) (v : α) : Nat → α := fun j => if j = i then v else f j

/-- A `struct TokenList**`: the place where the next node of a list is linked. -/
inductive Loc
  | node (i : Nat)
  | arg (i : Nat)
  | mac (i : Nat)

/-- `*L = v`. -/
def setLoc (l : Loc) (v : Option Nat) (s : S) : S :=
  match l with
  | .node i => { s with node := upd s.node i { s.node i with next := v } }
  | .arg i => { s with arg := upd s.arg i { s.arg i with repl := v } }
  | .mac i => { s with mac := upd s.mac i { s.mac i with repl := v } }

/-! ## Text -/

/-- The characters of a NUL-terminated string of `m` from `off`; `none` when it is not terminated within the array. -/
def cstr {n : Nat} (m : Mem n) : Nat → Nat → Option (List Byte)
  | 0, _ => none
  | k + 1, off => if m.get off = 0 then some [] else (cstr m k (off + 1)).map (m.get off :: ·)

/-- The string a pointer points to. -/
def strOf (s : S) : Txt → Option (List Byte)
  | .data off => cstr s.td (tokenDataMax - off) off
  | .strBuf => cstr s.strBuf strBufMax 0
  | .lit l => some l
  | .arg _ => none
  | .undef => none

def text (t : Txt) : A (List Byte) := do
  let s ← getS
  match strOf s t with
  | some l => pure l
  | none => fail .ub

/-- Store into `TokenData`. -/
def tdStore (b : Byte) : A Unit := do
  let s ← getS
  ubUnless (s.tdPos < tokenDataMax)
  modS fun s => { s with td := s.td.set s.tdPos b, tdPos := s.tdPos + 1 }

/-- Store a string into `TokenData` without moving `TokenDataPos`. -/
def writeMem {n : Nat} (m : Mem n) (off : Nat) : List Byte → Mem n
  | [] => m
  | b :: bs => writeMem (m.set off b) (off + 1) bs

/-! ## Characters -/

/-- The next character of the file, 0 at its end. -/
def nextCh (s : S) : S :=
  match s.inp with
  | [] => { s with cur := 0 }
  | c :: r => { s with cur := c, inp := r }

/-- The inline copies of `ReadChar` that do not count lines, e.g. `scpp.c:478-481`. -/
def fastChar : A Unit := modS nextCh

/-- `ReadChar`, `scpp.c:457-472`. -/
def readChar : A Unit := modS fun s => nextCh { s with line := if s.cur = 0x0A then s.line + 1 else s.line }

/-- `ReadToTokenData`, `scpp.c:474-482`. -/
def readToTokenData : A Unit := do
  let s ← getS
  assertM (s.tdPos < tokenDataMax)
  modS fun s => { s with td := s.td.set s.tdPos s.cur, tdPos := s.tdPos + 1 }
  fastChar

def setTy (t : Nat) : A Unit := modS fun s => { s with tok := { s.tok with ty := t } }

/-- `TryExtendOp`, `scpp.c:484-492`. -/
def tryExtendOp (ch : Byte) (t : Nat) : A Unit := do
  let s ← getS
  if s.cur = ch then
    readToTokenData
    setTy t

/-- The table `IsIdChar`, `scpp.c:580`: letters, digits and `_`. -/
def isIdTable : List Byte :=
  [0, 0, 0, 0, 0, 0, 0xFF, 0x03, 0xFE, 0xFF, 0xFF, 0x87, 0xFE, 0xFF, 0xFF, 0x07] ++ List.replicate 16 0

def isIdChar (c : Byte) : Bool := (isIdTable.getD (c.toNat / 8) 0).getLsbD (c.toNat % 8)

/-- `CurrentChar <= ' '` for a signed `char`. -/
def isWs (c : Byte) : Bool := c.toNat ≤ 0x20 || 0x80 ≤ c.toNat

/-! ## The lexer, `RawGetToken` from label `Restart`, `scpp.c:623-798` -/

/-- `Out:`, `scpp.c:794-796`. -/
def tokOut : A Unit := do
  let s ← getS
  assertM (s.tdPos < tokenDataMax)
  modS fun s => { s with td := s.td.set s.tdPos 0, tdPos := s.tdPos + 1 }

/-- The loop of a `//` comment, `scpp.c:635-642`. -/
def lineComment : Nat → A Unit
  | 0 => fail .fuel
  | n + 1 => do
    fastChar
    let s ← getS
    if s.cur = 0 ∨ s.cur = 0x0A then pure () else lineComment n

/-- The loop of a `/* */` comment, `scpp.c:647-650`. -/
def blockComment : Nat → Bool → A Unit
  | 0, _ => fail .fuel
  | n + 1, star => do
    let s ← getS
    if s.cur ≠ 0 ∧ (star = false ∨ s.cur ≠ 0x2F) then
      readChar
      blockComment n (s.cur == 0x2A)
    else pure ()

/-- The loop of a literal, `scpp.c:676-686`; false: the literal is not closed on its line. -/
def litLoop : Nat → Byte → Bool → A Bool
  | 0, _, _ => fail .fuel
  | n + 1, e, esc => do
    let s ← getS
    if esc = true ∨ s.cur ≠ e then
      if s.cur = 0 ∨ s.cur = 0x0A then pure false
      else
        readToTokenData
        litLoop n e (if s.cur = 0x5C then !esc else false)
    else pure true

/-- The loop over white space, `scpp.c:707-714`. -/
def wsLoop : Nat → A Unit
  | 0 => fail .fuel
  | n + 1 => do
    let s ← getS
    if isWs s.cur = true ∧ s.cur ≠ 0x0A then
      fastChar
      let s ← getS
      if s.cur = 0 then pure () else wsLoop n
    else pure ()

/-- The loop of a number, `scpp.c:724-730`. -/
def numLoop : Nat → A Unit
  | 0 => fail .fuel
  | n + 1 => do
    let s ← getS
    if isIdChar s.cur then
      tdStore s.cur
      fastChar
      numLoop n
    else pure ()

/-- One step of the hash of names, `scpp.c:738`, `832`, `847`; only the value modulo 128 is used. -/
def hashStep (h : Nat) (c : Byte) : Nat := (h * 17 + c.toNat) % idHashMax

def hashOf (l : List Byte) : Nat := l.foldl hashStep 0

/-- The loop of an identifier, `scpp.c:737-743`. -/
def idLoop : Nat → A Unit
  | 0 => fail .fuel
  | n + 1 => do
    let s ← getS
    modS fun s => { s with hash := hashStep s.hash s.cur }
    tdStore s.cur
    fastChar
    let s ← getS
    if isIdChar s.cur then idLoop n else pure ()

/-- The characters that are tokens, `scpp.c:749-789`. -/
def opChars : List Byte := asc "#=!<>&|*/%+-^()?:,;{}[].~"

/-- The switch over the first character of an operator, `scpp.c:749-793`. -/
def opTail (c : Byte) : A Unit :=
  match c.toNat with
  | 0x23 => tryExtendOp 0x23 tokHashhash
  | 0x3D => tryExtendOp 0x3D tokEqeq
  | 0x21 => tryExtendOp 0x3D tokNoteq
  | 0x3C => tryExtendOp 0x3D tokLteq
  | 0x3E => tryExtendOp 0x3D tokGteq
  | 0x26 => tryExtendOp 0x26 tokAndand
  | 0x7C => tryExtendOp 0x7C tokOror
  | _ => assertM (opChars.contains c)

/-- An operator, `scpp.c:747-793`. -/
def lexOp : A Unit := do
  let s ← getS
  setTy s.cur.toNat
  readToTokenData
  opTail s.cur
  tokOut

def lexId (n : Nat) : A Unit := do
  setTy tokRawId
  modS fun s => { s with hash := 0 }
  idLoop n
  tokOut

/-- `scpp.c:623-798`. -/
def lexRaw : Nat → A Unit
  | 0 => fail .fuel
  | n + 1 => do
    modS fun s => { s with tdPos := s.tdNext, tok := { s.tok with txt := .data s.tdNext } }
    let s ← getS
    if s.cur = 0x0A then
      setTy tokNl
      readChar
    else if s.cur = 0x2F then
      readChar
      let s ← getS
      if s.cur = 0x2F then
        lineComment n
        lexRaw n
      else if s.cur = 0x2A then
        readChar
        blockComment n false
        readChar
        lexRaw n
      else
        setTy 0x2F
        assertM (s.tdPos < tokenDataMax)
        tdStore 0x2F
        tokOut
    else if s.cur = 0x5C then
      setTy 0x5C
      readToTokenData
      let s ← getS
      if s.cur = 0x0D then
        readChar
        let s ← getS
        assertM (s.cur == 0x0A)
      let s ← getS
      if s.cur ≠ 0x0A then tokOut
      else
        readChar
        lexRaw n
    else if s.cur = 0x22 ∨ s.cur = 0x27 then
      readChar
      setTy (if s.cur = 0x22 then tokStrlit else tokCharlit)
      let closed ← litLoop n s.cur false
      if closed then readChar else setTy tokInvalidLit
      tokOut
    else if s.cur = 0 then
      setTy (if s.tok.ty = tokEof then tokNl else tokEof)
    else if s.cur = 0x5F then lexId n
    else if isWs s.cur then
      setTy tokWs
      readChar
      let s ← getS
      if s.cur = 0 then pure () else wsLoop n
    else if s.cur.toNat < 0x41 then
      if 0x30 ≤ s.cur.toNat ∧ s.cur.toNat ≤ 0x39 then
        setTy tokNum
        readToTokenData
        let s ← getS
        if s.cur = 0x78 ∨ s.cur = 0x58 then readToTokenData
        numLoop n
        tokOut
      else lexOp
    else if (s.cur &&& 0xDF).toNat ≤ 0x5A then lexId n
    else lexOp

/-! ## Token lists -/

/-- `AddToken`, `scpp.c:494-503`. -/
def addToken (l : Loc) (t : Tok) : A Loc := do
  let s ← getS
  match s.free with
  | none => fail .assertFail
  | some e =>
    modS fun s => { s with free := (s.node e).next, node := upd s.node e { s.node e with next := none } }
    modS (setLoc l (some e))
    modS fun s => { s with node := upd s.node e { s.node e with tok := t } }
    pure (.node e)

/-- The loop of `FreeTokenList`, `scpp.c:510-516`: link the last node of the list to `last`. -/
def linkLast : Nat → Nat → Option Nat → A Unit
  | 0, _, _ => fail .fuel
  | n + 1, i, last => do
    let s ← getS
    match (s.node i).next with
    | none => modS fun s => { s with node := upd s.node i { s.node i with next := last } }
    | some j => linkLast n j last

/-- `FreeTokenList`, `scpp.c:505-517`. -/
def freeTokenList (tl : Option Nat) : A Unit := do
  match tl with
  | none => pure ()
  | some i =>
    let s ← getS
    modS fun s => { s with free := some i }
    linkLast (tokenListMax + 1) i s.free

/-- `SkipWsNL`, `scpp.c:519-528`. -/
def skipWsNl : Nat → Option Nat → A (Option Nat)
  | 0, _ => fail .fuel
  | n + 1, tl => do
    match tl with
    | none => pure none
    | some i =>
      let s ← getS
      if (s.node i).tok.ty = tokWs ∨ (s.node i).tok.ty = tokNl then skipWsNl n (s.node i).next
      else pure (some i)

/-- The loop of `FreeArgs`, `scpp.c:534-538`. -/
def freeArgLoop : Nat → Option Nat → A Unit
  | 0, _ => fail .fuel
  | n + 1, a => do
    match a with
    | none => pure ()
    | some i =>
      let s ← getS
      freeTokenList (s.arg i).repl
      modS (setLoc (.arg i) none)
      freeArgLoop n (s.arg i).next

/-- `FreeArgs`, `scpp.c:530-539`. -/
def freeArgs (p : Params) : A Unit :=
  match p with
  | .none => pure ()
  | .empty => pure ()
  | .some i => freeArgLoop (argumentMax + 1) (some i)

/-- `TokenQueuePush`, `scpp.c:541-545`. -/
def queuePush (t : Tok) : A Unit := do
  let s ← getS
  assertM (s.queue.length < tokenQueueMax)
  modS fun s => { s with queue := s.queue ++ [t] }

/-- `SimpleExpand`, `scpp.c:547-557`. -/
def simpleExpand : Nat → Tok → A (Option Tok)
  | 0, _ => fail .fuel
  | n + 1, t => do
    if t.ty = tokArg then
      let s ← getS
      match t.txt with
      | .arg i =>
        match (s.arg i).repl with
        | none => pure none
        | some j =>
          assertM (s.node j).next.isNone
          simpleExpand n (s.node j).tok
      | _ => fail .ub
    else pure (some t)

/-- `PasteAppend`, `scpp.c:561-578`.  The two texts are read before they are copied (they lie below `TokenDataPos`). -/
def pasteAppend (t : Tok) : A Unit := do
  let s ← getS
  let a ← simpleExpand (argumentMax + 1) s.tok
  match a with
  | none => fail .ub
  | some a =>
    let b ← simpleExpand (argumentMax + 1) t
    let t2 ← match b with
      | none => pure []
      | some b => text b.txt
    let t1 ← text a.txt
    assertM (s.tdPos + t1.length + (t2.length + 1) < tokenDataMax)
    modS fun s => { s with
      td := writeMem s.td s.tdPos (t1 ++ t2 ++ [0])
      tdPos := s.tdPos + t1.length + (t2.length + 1)
      tok := { ty := if 0x20 < a.ty ∧ a.ty < tokRawId then tokCreatedOp else a.ty, txt := .data s.tdPos } }

/-- `RS->TL = TL` for the top of `ReplaceStack`. -/
def setTop (tl : Option Nat) : A Unit := modS fun s =>
  match s.stack with
  | [] => s
  | r :: rs => { s with stack := { r with tl := tl } :: rs }

/-- The loop over `##`, `scpp.c:593-599`. -/
def pasteLoop : Nat → Option Nat → A Unit
  | 0, _ => fail .fuel
  | n + 1, tl => do
    match tl with
    | none => pure ()
    | some i =>
      let s ← getS
      if (s.node i).tok.ty = tokHashhash then
        let tl ← skipWsNl (tokenListMax + 1) (s.node i).next
        match tl with
        | none => fail .assertFail
        | some j =>
          let s ← getS
          pasteAppend (s.node j).tok
          let tl ← skipWsNl (tokenListMax + 1) (s.node j).next
          setTop tl
          pasteLoop n tl
      else pure ()

/-- `RawGetToken` from the loop over `ReplaceStack` on, `scpp.c:584-621`.  `k` bounds the number of iterations (the height of
the stack). -/
def rawPop : Nat → A Unit
  | 0 => fail .fuel
  | k + 1 => do
    let s ← getS
    match s.stack with
    | [] =>
      match s.queue with
      | t :: q => modS fun s => { s with tok := t, queue := q, hash := idHashMax }
      | [] => lexRaw (s.inp.length + 2)
    | r :: rs =>
      match r.m with
      | some m => assertM ((s.mac m).hide == 1)
      | none => pure ()
      match r.tl with
      | some i =>
        modS fun s => { s with tok := (s.node i).tok }
        setTop (s.node i).next
        let tl ← skipWsNl (tokenListMax + 1) (s.node i).next
        pasteLoop (tokenListMax + 1) tl
        modS fun s => { s with hash := idHashMax }
      | none =>
        match r.m with
        | some m =>
          modS fun s => { s with mac := upd s.mac m { s.mac m with hide := 0 } }
          freeArgs (s.mac m).args
        | none => pure ()
        modS fun s => { s with stack := rs }
        if r.stop then setTy tokEof else rawPop k

/-- `RawGetToken`, `scpp.c:582-798`. -/
def rawGetToken : A Unit := do
  let s ← getS
  rawPop (s.stack.length + 1)

/-! ## Identifiers -/

/-- The search for a free slot, `scpp.c:833-834`. -/
def freeSlot (t : Nat → Option Nat) : Nat → Nat → Option Nat
  | 0, _ => none
  | n + 1, h => match t h with
    | none => some h
    | some _ => freeSlot t n ((h + 1) % idHashMax)

/-- `AddId`, `scpp.c:825-837`. -/
def addId (t : Txt) : A Nat := do
  let s ← getS
  assertM (s.idCount < idMax)
  let l ← text t
  match freeSlot s.idHash idHashMax (hashOf l) with
  | none => fail .fuel
  | some h =>
    modS fun s => { s with
      idText := upd s.idText s.idCount t
      idHash := upd s.idHash h (some s.idCount)
      idCount := s.idCount + 1 }
    pure s.idCount

/-- The search of `ReplaceId`, `scpp.c:851-860`. -/
def idLoopFind : Nat → List Byte → A Unit
  | 0, _ => fail .fuel
  | n + 1, l => do
    let s ← getS
    match s.idHash s.hash with
    | none => pure ()
    | some i =>
      let t ← text (s.idText i)
      if t = l then setTy (tokId + i)
      else
        modS fun s => { s with hash := (s.hash + 1) % idHashMax }
        idLoopFind n l

/-- `ReplaceId`, `scpp.c:839-861`. -/
def replaceId : A Unit := do
  let s ← getS
  assertM (s.tok.ty == tokRawId)
  let l ← text s.tok.txt
  if s.hash = idHashMax then modS fun s => { s with hash := hashOf l }
  idLoopFind (idHashMax + 1) l

/-- `RawSkipWS`, `scpp.c:863-867`. -/
def rawSkipWs : Nat → A Unit
  | 0 => fail .fuel
  | n + 1 => do
    let s ← getS
    if s.tok.ty = tokWs then
      rawGetToken
      rawSkipWs n
    else pure ()

/-- A push on `ReplaceStack`, e.g. `scpp.c:876-880`. -/
def push (r : RepElem) : A Unit := do
  let s ← getS
  assertM (s.stack.length < maxNest)
  modS fun s => { s with stack := r :: s.stack }

/-- `PushHandleArg`, `scpp.c:871-881`. -/
def pushArg (i : Nat) (stop : Bool) : A Unit := do
  let s ← getS
  push { m := none, tl := (s.arg i).repl, stop := stop }

/-- The loop of `GetArg`, `scpp.c:887-899` (also `scpp.c:1147-1155`). -/
def findArg (arg : Nat → Arg) (id : Nat) : Nat → Option Nat → Option (Option Nat)
  | 0, _ => none
  | n + 1, a => match a with
    | none => some none
    | some i => if (arg i).id = id then some (some i) else findArg arg id n (arg i).next

/-- `GetArg`, `scpp.c:883-902`.  The pointer value 1 is dereferenced. -/
def getArg (id : Nat) : A (Option Nat) := do
  let s ← getS
  match s.stack with
  | [] => pure none
  | r :: _ =>
    match r.m with
    | none => pure none
    | some m =>
      match (s.mac m).args with
      | .none => pure none
      | .empty => fail .ub
      | .some i =>
        match findArg s.arg id (argumentMax + 1) (some i) with
        | none => fail .fuel
        | some r => pure r

/-- The tokens of one argument of a macro call, `scpp.c:987-1007`; `nest` and `pend` are `Nest` and `PendWS` (`none`: −1). -/
def argTokens : Nat → Loc → Nat → Option Bool → A Loc
  | 0, _, _, _ => fail .fuel
  | n + 1, l, nest, pend => do
    let s ← getS
    if s.tok.ty = tokWs ∨ s.tok.ty = tokNl then
      rawGetToken
      argTokens n l nest (if pend = some false then some true else pend)
    else if (s.tok.ty = 0x29 ∧ nest = 0) ∨ s.tok.ty = tokEof ∨ (nest = 0 ∧ s.tok.ty = 0x2C) then pure l
    else
      let nest := if s.tok.ty = 0x28 then nest + 1 else if s.tok.ty = 0x29 then nest - 1 else nest
      let l ← if pend = some true then addToken l { ty := tokWs, txt := .undef } else pure l
      let l ← addToken l s.tok
      assertM (s.tdNext ≤ s.tdPos)
      modS fun s => { s with tdNext := s.tdPos }
      rawGetToken
      argTokens n l nest (some false)

/-- The arguments of a macro call, `scpp.c:983-1014`. -/
def callArgs : Nat → Nat → Option Nat → A Unit
  | 0, _, _ => fail .fuel
  | n + 1, f, a => do
    match a with
    | none =>
      let s ← getS
      assertM (s.tok.ty == 0x29)
    | some i =>
      let l ← argTokens f (.arg i) 0 none
      modS (setLoc l none)
      let s ← getS
      if s.tok.ty = 0x2C then
        rawGetToken
        callArgs n f (s.arg i).next
      else assertM ((s.arg i).next.isNone && s.tok.ty == 0x29)

mutual

/-- `GetToken`, `scpp.c:904-1029`. -/
def getToken : Nat → A Unit
  | 0 => fail .fuel
  | n + 1 => do
    rawGetToken
    let s ← getS
    if s.tok.ty = 0x23 then
      if s.stack.isEmpty then pure ()
      else
        rawGetToken
        rawSkipWs n
        let s ← getS
        assertM (s.tok.ty == tokArg)
        match s.tok.txt with
        | .arg i => stringify n (s.arg i).repl 0 false 0
        | _ => fail .ub
    else if s.tok.ty = tokArg then
      match s.tok.txt with
      | .arg i =>
        pushArg i false
        getToken n
      | _ => fail .ub
    else if s.tok.ty ≠ tokRawId then pure ()
    else
      replaceId
      let s ← getS
      if s.tok.ty < tokUserId then
        if tokDefined < s.tok.ty then
          if s.tok.ty = tokLine__ then
            let t := decimal s.line
            ubUnless (s.tdNext + t.length + 1 ≤ tokenDataMax)
            modS fun s => { s with
              td := writeMem s.td s.tdNext (t ++ [0])
              tdNext := s.tdNext + t.length + 1
              tok := { ty := tokNum, txt := .data s.tdNext } }
          else if s.tok.ty = tokFile__ then modS fun s => { s with tok := { ty := tokStrlit, txt := s.name } }
          else modS fun s => { s with tok := { ty := tokNum, txt := .lit (asc "1") } }
      else
        let id := s.tok.ty
        let a ← getArg id
        match a with
        | some i =>
          pushArg i false
          getToken n
        | none =>
          let m := id - tokUserId
          if (s.mac m).hide ≠ 0 then pure ()
          else
            match (s.mac m).args with
            | .none =>
              expand n m
            | p =>
              rawGetToken
              let s1 ← getS
              let ws := s1.tok.ty
              rawSkipWs n
              let s1 ← getS
              if s1.tok.ty ≠ 0x28 then
                if ws < 0x20 then queuePush { ty := ws, txt := .undef }
                queuePush s1.tok
                modS fun s => { s with tok := { ty := id, txt := s.idText (id - tokId) } }
              else
                rawGetToken
                rawSkipWs n
                let s1 ← getS
                if s1.tok.ty ≠ 0x29 then
                  match p with
                  | .some i => callArgs (argumentMax + 1) n (some i)
                  | _ => fail .assertFail
                expand n m

/-- Start the expansion of a macro, `scpp.c:1018-1027`, and go on. -/
def expand : Nat → Nat → A Unit
  | 0, _ => fail .fuel
  | n + 1, m => do
    let s ← getS
    match (s.mac m).repl with
    | some i =>
      push { m := some m, tl := some i, stop := false }
      modS fun s => { s with mac := upd s.mac m { s.mac m with hide := 1 } }
    | none => freeArgs (s.mac m).args
    getToken n

/-- `Stringify`, `scpp.c:1033-1078`, with `StrPos`, `PendWS`, `FromS`. -/
def stringify : Nat → Option Nat → Nat → Bool → Nat → A Unit
  | 0, _, _, _, _ => fail .fuel
  | n + 1, tl, pos, pend, fromS => do
    if tl = none ∧ fromS = 0 then
      assertM (pos < strBufMax)
      modS fun s => { s with strBuf := s.strBuf.set pos 0, tok := { ty := tokStrlit, txt := .strBuf } }
    else
      let tl ← (if fromS = 0 then
        match tl with
        | some i => do
          let s ← getS
          modS fun s => { s with tok := (s.node i).tok }
          pure (s.node i).next
        | none => fail .ub
      else do
        getToken n
        pure tl)
      let s ← getS
      if fromS ≠ 0 ∧ s.tok.ty = tokEof then stringify n tl pos pend (fromS - 1)
      else if s.tok.ty = tokArg then
        match s.tok.txt with
        | .arg i =>
          pushArg i true
          stringify n tl pos pend (fromS + 1)
        | _ => fail .ub
      else if s.tok.ty = tokWs ∨ s.tok.ty = tokNl then stringify n tl pos true fromS
      else
        if pend then
          assertM (pos < strBufMax)
          modS fun s => { s with strBuf := s.strBuf.set pos 0x20 }
        let pos := if pend then pos + 1 else pos
        let l ← text s.tok.txt
        assertM (pos + l.length < strBufMax)
        modS fun s => { s with strBuf := writeMem s.strBuf pos l }
        stringify n tl (pos + l.length) false fromS

end

/-! ## Directives -/

/-- The parameters of a macro, `scpp.c:1109-1130`.  `prev` is the parameter before, whose `Next` field `LastArg` points to
(`none`: the field `Arguments` of macro `m`). -/
def defParams : Nat → Nat → Option Nat → A (Option Nat)
  | 0, _, _ => fail .fuel
  | n + 1, m, prev => do
    let s ← getS
    if s.tok.ty = 0x29 then pure prev
    else
      rawSkipWs n
      let s ← getS
      assertM (s.tok.ty == tokRawId)
      replaceId
      let s ← getS
      if s.tok.ty = tokRawId then
        let id ← addId s.tok.txt
        setTy (tokId + id)
        modS fun s => { s with tdNext := s.tdPos }
        assertM (tokId + id < tokUserId + macroMax)
        modS fun s => { s with mac := upd s.mac (tokId + id - tokUserId) { s.mac (tokId + id - tokUserId) with hide := 2 } }
      let s ← getS
      assertM (s.argCount < argumentMax)
      let i := s.argCount
      modS fun s => { s with arg := upd s.arg i { s.arg i with id := s.tok.ty } }
      match prev with
      | none => modS fun s => { s with mac := upd s.mac m { s.mac m with args := .some i } }
      | some j => modS fun s => { s with arg := upd s.arg j { s.arg j with next := some i } }
      modS fun s => { s with argCount := i + 1 }
      rawGetToken
      rawSkipWs n
      let s ← getS
      if s.tok.ty ≠ 0x2C then pure (some i)
      else
        rawGetToken
        defParams n m (some i)

/-- The replacement list of a macro, `scpp.c:1139-1168`. -/
def defBody : Nat → Nat → Loc → Option Bool → A Loc
  | 0, _, _, _ => fail .fuel
  | n + 1, m, l, pend => do
    let s ← getS
    if s.tok.ty = tokNl then pure l
    else if s.tok.ty = tokWs then
      rawGetToken
      defBody n m l (if pend = some false then some true else pend)
    else
      if s.tok.ty = tokRawId ∧ (s.mac m).args ≠ .none then
        replaceId
        let s ← getS
        if tokUserId ≤ s.tok.ty then
          match (s.mac m).args with
          | .some i =>
            match findArg s.arg s.tok.ty (argumentMax + 1) (some i) with
            | none => fail .fuel
            | some (some a) => modS fun s => { s with tok := { ty := tokArg, txt := .arg a } }
            | some none => setTy tokRawId
          | _ => fail .ub
        else setTy tokRawId
      let l ← if pend = some true then addToken l { ty := tokWs, txt := .undef } else pure l
      let s ← getS
      let l ← addToken l s.tok
      modS fun s => { s with tdNext := s.tdPos }
      rawGetToken
      defBody n m l (some false)

/-- `HandleDefine`, `scpp.c:1080-1170`.  `Macros[Id-TOK_USER_ID]` with a negative index cannot occur: `AddId` returns an identifier
beyond the directives. -/
def handleDefine (n : Nat) : A Unit := do
  rawGetToken
  rawSkipWs n
  let s ← getS
  assertM (s.tok.ty == tokRawId)
  replaceId
  let s ← getS
  if tokUserId ≤ s.tok.ty ∧ (s.mac (s.tok.ty - tokUserId)).hide = 0 then pure ()
  else
    let m ← if tokUserId ≤ s.tok.ty then do
        let m := s.tok.ty - tokUserId
        modS fun s => { s with mac := upd s.mac m { s.mac m with hide := 0 } }
        pure m
      else do
        let id ← addId s.tok.txt
        modS fun s => { s with tdNext := s.tdPos }
        assertM (tokId + id < tokUserId + macroMax)
        pure (tokId + id - tokUserId)
    rawGetToken
    let s ← getS
    if s.tok.ty = 0x28 then
      rawGetToken
      rawSkipWs n
      let last ← defParams n m none
      match last with
      | none => modS fun s => { s with mac := upd s.mac m { s.mac m with args := .none } }
      | some j => modS fun s => { s with arg := upd s.arg j { s.arg j with next := none } }
      let s ← getS
      assertM (s.tok.ty == 0x29)
      rawGetToken
      modS fun s => { s with mac := upd s.mac m { s.mac m with args := if (s.mac m).args = .none then .empty else (s.mac m).args } }
    rawSkipWs n
    let l ← defBody n m (.mac m) none
    modS (setLoc l none)

/-- `SkipWS`, `scpp.c:1172-1176`. -/
def skipWs : Nat → A Unit
  | 0 => fail .fuel
  | n + 1 => do
    let s ← getS
    if s.tok.ty = tokWs then
      getToken n
      skipWs n
    else pure ()

/-- `Expect`, `scpp.c:1187-1195`. -/
def expect (n : Nat) (t : Nat) : A Unit := do
  let s ← getS
  assertM (s.tok.ty == t)
  getToken n

/-- `IsDefined`, `scpp.c:1197-1200`. -/
def isDefined (s : S) (t : Nat) : Bool :=
  (tokDefined < t && t < tokUserId) || (tokUserId ≤ t && (s.mac (t - tokUserId)).hide == 0)

/-- Is `n` a value of a 32-bit `int`? -/
abbrev InInt (n : Int) : Prop := -2147483648 ≤ n ∧ n ≤ 2147483647

/-- The result of an `int` operation. -/
def ck (n : Int) : A Int := do
  ubUnless (decide (InInt n))
  pure n

/-- The digits of a number, `scpp.c:1220-1227`. -/
def digits (base : Int) : List Byte → Int → A Int
  | [], n => pure n
  | c :: cs, n => do
    let n ← ck (n * base)
    let n ← ck (n + if 0x30 ≤ c.toNat ∧ c.toNat ≤ 0x39 then (c.toNat : Int) - 0x30 else ((c &&& 0xDF).toNat : Int) - 55)
    digits base cs n

/-- The value of a number, `scpp.c:1209-1227`. -/
def number (l : List Byte) : A Int :=
  match l with
  | 0x30#8 :: 0x78#8 :: r => digits 16 r 0
  | 0x30#8 :: 0x58#8 :: r => digits 16 r 0
  | 0x30#8 :: r => digits 8 r 0
  | l => digits 10 l 0

/-- `OperatorPrecedence`, `scpp.c:1268-1283`. -/
def prec (op : Nat) : Nat :=
  if op = 0x2A ∨ op = 0x2F ∨ op = 0x25 then 3
  else if op = 0x2B ∨ op = 0x2D then 4
  else if op = 0x3C ∨ op = 0x3E ∨ op = tokLteq ∨ op = tokGteq then 6
  else if op = tokEqeq ∨ op = tokNoteq then 7
  else if op = 0x26 then 8
  else if op = 0x5E then 9
  else if op = 0x7C then 10
  else if op = tokAndand then 11
  else if op = tokOror then 12
  else if op = 0x3F then 13
  else 100

/-- The value of a comparison. -/
def ofBool (b : Bool) : Int := if b then 1 else 0

/-- An operator on the bits of two `int`s. -/
def bits (f : BitVec 32 → BitVec 32 → BitVec 32) (a b : Int) : Int := (f (BitVec.ofInt 32 a) (BitVec.ofInt 32 b)).toInt

/-- `scpp.c:1314-1334`.  (`'>'` computes `<`.) -/
def calcOp (op : Nat) (l r : Int) : A Int :=
  if op = 0x2A then ck (l * r)
  else if op = 0x2F then do
    ubUnless (r != 0)
    ck (l.tdiv r)
  else if op = 0x25 then do
    ubUnless (r != 0)
    let _ ← ck (l.tdiv r)
    pure (l.tmod r)
  else if op = 0x2B then ck (l + r)
  else if op = 0x2D then ck (l - r)
  else if op = 0x3C then pure (ofBool (l < r))
  else if op = 0x3E then pure (ofBool (l < r))
  else if op = tokLteq then pure (ofBool (l ≤ r))
  else if op = tokGteq then pure (ofBool (r ≤ l))
  else if op = tokEqeq then pure (ofBool (l == r))
  else if op = tokNoteq then pure (ofBool (l != r))
  else if op = 0x26 then pure (bits (· &&& ·) l r)
  else if op = 0x5E then pure (bits (· ^^^ ·) l r)
  else if op = 0x7C then pure (bits (· ||| ·) l r)
  else if op = tokAndand then pure (ofBool (l != 0 && r != 0))
  else if op = tokOror then pure (ofBool (l != 0 || r != 0))
  else fail .assertFail

mutual

/-- `EvalUnary`, `scpp.c:1204-1266`. -/
def evalUnary : Nat → A Int
  | 0 => fail .fuel
  | n + 1 => do
    skipWs n
    let s ← getS
    if s.tok.ty = tokNum then
      let l ← text s.tok.txt
      let v ← number l
      getToken n
      pure v
    else if s.tok.ty = tokRawId then
      getToken n
      pure 0
    else if s.tok.ty = tokDefined then
      getToken n
      rawSkipWs n
      let s ← getS
      let par := s.tok.ty == 0x28
      if par then
        rawGetToken
        rawSkipWs n
      replaceId
      let s ← getS
      let v := isDefined s s.tok.ty
      getToken n
      if par then expect n 0x29
      pure (ofBool v)
    else if s.tok.ty = 0x21 then
      getToken n
      let v ← evalUnary n
      pure (ofBool (v == 0))
    else if s.tok.ty = 0x28 then
      getToken n
      let l ← evalUnary n
      let v ← evalExpr1 n l 15
      expect n 0x29
      pure v
    else
      assertM (tokUserId ≤ s.tok.ty && (s.mac (s.tok.ty - tokUserId)).hide == 2)
      getToken n
      pure 0

/-- `EvalExpr1`, `scpp.c:1285-1337`. -/
def evalExpr1 : Nat → Int → Nat → A Int
  | 0, _, _ => fail .fuel
  | n + 1, lhs, outer => do
    skipWs n
    let s ← getS
    let op := s.tok.ty
    if op ≤ 0x20 ∨ tokId ≤ op then pure lhs
    else if outer < prec op then pure lhs
    else
      getToken n
      if op = 0x3F then
        let l ← evalUnary n
        let l ← evalExpr1 n l 14
        expect n 0x3A
        let r ← evalUnary n
        let r ← evalExpr1 n r 14
        evalExpr1 n (if lhs ≠ 0 then l else r) outer
      else
        let rhs ← evalUnary n
        let rhs ← evalRhs n rhs (prec op)
        let v ← calcOp op lhs rhs
        evalExpr1 n v outer

/-- The inner loop of `EvalExpr1`, `scpp.c:1304-1313`. -/
def evalRhs : Nat → Int → Nat → A Int
  | 0, _, _ => fail .fuel
  | n + 1, rhs, p => do
    skipWs n
    let s ← getS
    let op := s.tok.ty
    if op ≤ 0x20 ∨ tokId ≤ op then pure rhs
    else if p < prec op then pure rhs
    else
      let rhs ← evalExpr1 n rhs (prec op)
      evalRhs n rhs p

end

/-- `EvalExpr`, `scpp.c:1339-1342`. -/
def evalExpr (n : Nat) : A Int := do
  let l ← evalUnary n
  evalExpr1 n l 15

/-- `CondActive`, `scpp.c:1344-1347`. -/
def condActive (c : List Cond) : Bool :=
  match c with
  | [] => true
  | c :: _ => c == .true

/-- `NewCond`, `scpp.c:1349-1359`. -/
def newCond (active : Bool) : A Unit := do
  let s ← getS
  assertM (s.cond.length < condMax)
  modS fun s => { s with cond := (if !condActive s.cond then .done else if active then .true else .false) :: s.cond }

/-- The loop over `<name>`, `scpp.c:1370-1372`. -/
def incLoop : Nat → A Unit
  | 0 => fail .fuel
  | n + 1 => do
    let s ← getS
    if s.cur ≠ 0x3E then
      readToTokenData
      incLoop n
    else pure ()

/-- The files that can be opened. -/
abbrev Fs := List Byte → Option (List Byte)

/-- `HandleInclude`, `scpp.c:1361-1390`, with `OpenFile`, `scpp.c:433-447`. -/
def handleInclude (fs : Fs) (n : Nat) : A Unit := do
  getToken n
  skipWs n
  let s ← getS
  let name ← if s.tok.ty = 0x3C then do
      modS fun s => { s with tdPos := s.tdNext }
      incLoop (tokenDataMax + 2)
      tdStore 0
      modS fun s => { s with tdNext := s.tdPos }
      pure (.data s.tdNext)
    else do
      modS fun s => { s with tdNext := s.tdPos }
      pure s.tok.txt
  rawGetToken
  setTy tokNl
  let s ← getS
  assertM (s.files.length + 2 < filesMax)
  let l ← text name
  match fs l with
  | none => fail .fatal
  | some c =>
    modS fun s => { s with
      files := { name := s.name, oldLine := s.oldLine, last := s.cur, rest := s.inp } :: s.files
      name := name, oldLine := s.line, line := 1, inp := c }
    readChar

/-- `scpp.c:1464-1466`. -/
def toNewline : Nat → A Unit
  | 0 => fail .fuel
  | n + 1 => do
    let s ← getS
    if s.tok.ty ≠ tokNl then
      rawGetToken
      toNewline n
    else pure ()

/-- `*S = c` for the innermost conditional section. -/
def setCond (c : Cond) : A Unit := modS fun s => { s with cond := c :: s.cond.tail }

/-- `HandleDirective`, `scpp.c:1392-1467`. -/
def handleDirective (fs : Fs) (n : Nat) : A Unit := do
  rawSkipWs n
  let s ← getS
  if s.tok.ty = tokNl then pure ()
  else
    replaceId
    let s ← getS
    let d := s.tok.ty
    assertM (d < tokUserId)
    if d = tokDefine then
      if condActive s.cond then handleDefine n
    else if d = tokInclude then
      if condActive s.cond then handleInclude fs n
    else if d = tokUndef then
      if condActive s.cond then
        rawGetToken
        rawSkipWs n
        replaceId
        let s ← getS
        if tokUserId ≤ s.tok.ty then
          let m := s.tok.ty - tokUserId
          modS fun s => { s with mac := upd s.mac m { s.mac m with hide := 2 } }
          freeTokenList (s.mac m).repl
        getToken n
    else if d = tokIfdef ∨ d = tokIfndef then
      rawGetToken
      rawSkipWs n
      replaceId
      let s ← getS
      newCond ((d == tokIfndef) ^^ isDefined s s.tok.ty)
      rawGetToken
    else if d = tokError then
      if condActive s.cond then fail .fatal
    else if d = tokPragma ∨ d = tokLine then pure ()
    else if d = tokRawId then assertM (!condActive s.cond)
    else
      getToken n
      let s ← getS
      if d = tokIf then
        let v ← evalExpr n
        newCond (v != 0)
      else if d = tokElif then
        match s.cond with
        | [] => fail .assertFail
        | .true :: _ => setCond .done
        | .false :: _ =>
          let v ← evalExpr n
          if v ≠ 0 then setCond .true
        | .done :: _ => pure ()
      else if d = tokElse then
        match s.cond with
        | [] => fail .assertFail
        | .true :: _ => setCond .done
        | .false :: _ => setCond .true
        | .done :: _ => pure ()
      else if d = tokEndif then
        match s.cond with
        | [] => fail .assertFail
        | _ :: r => modS fun s => { s with cond := r }
      else pure ()
    toNewline n

/-- `OutputStr`, `scpp.c:1469-1480`. -/
def outputStr (l : List Byte) : A Unit := modS fun s => { s with out := s.out ++ l }

/-- The printing of a token, `scpp.c:1536-1556`; `ws` is `WS`. -/
def printTok (ws : Nat) : A Unit := do
  if ws ≠ 0 then
    if 2 ≤ ws then outputStr (asc "\r\n") else outputStr (asc " ")
  let s ← getS
  let l ← text s.tok.txt
  if s.tok.ty = tokStrlit then
    outputStr (asc "\"")
    outputStr l
    outputStr (asc "\"")
  else if s.tok.ty = tokCharlit then
    outputStr (asc "'")
    outputStr l
    outputStr (asc "'")
  else outputStr l

/-- The loop of `PPMain`, `scpp.c:1491-1558`, with `WS` and `Active`.  `StartOfLine` is always 1: it is never set to 0. -/
def ppLoop (fs : Fs) (f : Nat) : Nat → Nat → Bool → A Unit
  | 0, _, _ => fail .fuel
  | n + 1, ws, active => do
    let s ← getS
    if s.tok.ty = 0x23 then
      rawGetToken
      handleDirective fs f
      let s ← getS
      if s.tok.ty = 0 then pure ()
      else
        assertM (s.tok.ty == tokNl)
        getToken f
        let s ← getS
        ppLoop fs f n ws (condActive s.cond)
    else if s.tok.ty = tokEof then
      match s.files with
      | [] => modS fun s => { s with line := s.oldLine }
      | r :: rs =>
        modS fun s => { s with line := s.oldLine, files := rs, name := r.name, oldLine := r.oldLine, cur := r.last, inp := r.rest }
        getToken f
        ppLoop fs f n ws active
    else if !active then
      getToken f
      ppLoop fs f n ws active
    else if s.tok.ty = tokWs then
      getToken f
      ppLoop fs f n (if ws = 0 then 1 else if ws = 2 then 3 else ws) active
    else if s.tok.ty = tokNl then
      getToken f
      ppLoop fs f n (if ws = 0 then 2 else if ws = 1 then 3 else ws) active
    else
      printTok ws
      getToken f
      ppLoop fs f n 0 active

/-- `PPMain`, `scpp.c:1482-1559`. -/
def ppMain (fs : Fs) (n : Nat) : A Unit := do
  readChar
  getToken n
  ppLoop fs n n 0 true

/-! ## `main`, `scpp.c:1574-1625` -/

/-- The names entered before the file is read, `scpp.c:1594-1609`. -/
def builtins : List (List Byte) :=
  [asc "define", asc "undef", asc "if", asc "ifdef", asc "ifndef", asc "elif", asc "else", asc "endif", asc "include", asc "line",
   asc "error", asc "pragma", asc "defined", asc "__FILE__", asc "__LINE__", asc "__SCC__"]

/-- The globals before the first `AddId`, for an input file of the given name and contents. -/
def init0 (name input : List Byte) : S where
  cur := 0
  inp := input
  line := 1
  name := .lit name
  oldLine := 0
  files := []
  td := Mem.const 0 11
  tdPos := 0
  tdNext := 0
  idText := fun _ => .undef
  idHash := fun _ => none
  idCount := 0
  tok := { ty := 0, txt := .undef }
  hash := 0
  queue := []
  node := fun i => { tok := { ty := 0, txt := .undef }, next := if i + 1 < tokenListMax then some (i + 1) else none }
  free := some 0
  arg := fun _ => { id := 0, next := none, repl := none }
  argCount := 0
  mac := fun _ => { args := .none, repl := none, hide := 0 }
  stack := []
  cond := []
  strBuf := Mem.const 0 8
  out := #[]

def addBuiltins : List (List Byte) → A Unit
  | [] => pure ()
  | b :: bs => do
    let _ ← addId (.lit b)
    addBuiltins bs

def mainM (fs : Fs) (n : Nat) : A Unit := do
  addBuiltins builtins
  ppMain fs n

/-- What the preprocessor writes for an input file; `n` bounds the loops of the model. -/
def preprocess (fs : Fs) (n : Nat) (name input : List Byte) : Except Err (Array Byte) :=
  match mainM fs n (init0 name input) with
  | .ok _ s => .ok s.out
  | .err e => .error e

end Scpp
