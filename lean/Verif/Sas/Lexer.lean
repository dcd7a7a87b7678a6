import Verif.Util.Prog
import Verif.Util.Text
/-!
# The lexer and the symbol table of the assembler, `/repo/sas.c:245-715`

The host build is modelled: `int` has 32 bits and `char` is signed.  The C globals that belong to lexing are the fields of
`Lex`; the characters not yet read are a list (`ReadChar` and its buffer are modelled in `Verif.Sas.Input`).  `Line` (used
in error messages only) is not modelled.
-/
namespace Sas
open I86 Text Prog

/-! Limits, `sas.c:246-253`. -/

abbrev idMax : Nat := 600
abbrev idHashMax : Nat := 1024
abbrev idBufferMax : Nat := 5000
abbrev outputMax : Nat := 20000
abbrev fixupMax : Nat := 600

/-! Token numbers, `sas.c:255-371`. -/

abbrev tokEof : Nat := 0
abbrev tokNumber : Nat := 1
abbrev tokString : Nat := 2
abbrev tokPlus : Nat := 0x2B
abbrev tokMinus : Nat := 0x2D
abbrev tokColon : Nat := 0x3A
abbrev tokComma : Nat := 0x2C
abbrev tokLbracket : Nat := 0x5B
abbrev tokRbracket : Nat := 0x5D
abbrev tokPipe : Nat := 0x7C
abbrev tokTilde : Nat := 0x7E
abbrev tokLsh : Nat := 128
abbrev tokId : Nat := 256
abbrev tokAl : Nat := 256
abbrev tokCl : Nat := 257
abbrev tokAx : Nat := 264
abbrev tokBx : Nat := 267
abbrev tokBp : Nat := 269
abbrev tokSi : Nat := 270
abbrev tokDi : Nat := 271
abbrev tokEs : Nat := 272
abbrev tokDs : Nat := 275
abbrev tokByte : Nat := 276
abbrev tokShort : Nat := 277
abbrev tokWord : Nat := 278
abbrev tokDirective : Nat := 279
abbrev tokCpu : Nat := 279
abbrev tokDb : Nat := 280
abbrev tokDw : Nat := 281
abbrev tokEqu : Nat := 282
abbrev tokOrg : Nat := 283
abbrev tokResb : Nat := 284
abbrev tokResw : Nat := 285
abbrev tokInst : Nat := 286
abbrev tokJo : Nat := 327
abbrev tokUserId : Nat := 355

/-- Is `n` a value of a 32-bit `int`? -/
def inInt (n : Int) : Bool := -2147483648 ≤ n && n ≤ 2147483647

/-- The symbol table, `sas.c:407-411`: the names in order (`IdBuffer`, `IdOffset`, `IdCount`), the hash table (`none` for -1)
and the number of bytes used in `IdBuffer`.  Names contain no NUL, so a name is the list of its characters. -/
structure IdTab where
  names : List (List Byte)
  hash : Nat → Option Nat
  bufLen : Nat

/-- The function `f` changed at `i`. -/
def upd {α : Type} (f : Nat → α) (i : Nat) (v : α) : Nat → α := fun j => if j = i then v else f j

/-- `HashStr`, `sas.c:484-490`, and the mask of its callers (`unsigned` arithmetic is modulo 2^32; only ten bits are kept). -/
def hashStr (s : List Byte) : Nat := s.foldl (fun h c => h * 89 + (c &&& 0xDF).toNat) 17 % idHashMax

/-- The loop of `AddId`, `sas.c:501-508`: the first free slot from `h` on (cut off after `fuel` turns). -/
def freeSlot (hash : Nat → Option Nat) : Nat → Nat → Nat → Option Nat
  | 0, _, _ => none
  | fuel + 1, h, i =>
    let h := h % idHashMax
    match hash h with
    | none => some h
    | some _ => freeSlot hash fuel (h + (1 + i)) (i + 1)

/-- `AddId`, `sas.c:492-510`.  The store to `IdOffset[IdCount]` is undefined for a full table. -/
def addId (t : IdTab) (s : List Byte) : Except Err (Nat × IdTab) :=
  if t.bufLen + (s.length + 1) > idBufferMax then .error .assertFail
  else if t.names.length ≥ idMax then .error .ub
  else
    match freeSlot t.hash idHashMax (hashStr s) 0 with
    | none => .error .fuel
    | some h => .ok (t.names.length,
        { names := t.names ++ [s], hash := upd t.hash h (some t.names.length), bufLen := t.bufLen + (s.length + 1) })

/-- `c &= 0xDF` for lower case letters, `sas.c:532-533`. -/
def upcase (c : Byte) : Byte := if 0x61 ≤ c.toNat ∧ c.toNat ≤ 0x7A then c &&& 0xDF else c

/-- The inner loop of `LookupId`, `sas.c:530-539`: is `s` the name of number `id`? -/
def idMatches (t : IdTab) (s : List Byte) (id : Nat) : Bool :=
  (if id < tokUserId - tokId then s.map upcase else s) == t.names.getD id []

/-- The loop of `LookupId`, `sas.c:523-542` (cut off after `fuel` turns); the assertion of `IdText` is included. -/
def lookupLoop (t : IdTab) (s : List Byte) : Nat → Nat → Nat → Except Err (Option Nat)
  | 0, _, _ => .error .fuel
  | fuel + 1, h, j =>
    let h := h % idHashMax
    match t.hash h with
    | none => .ok none
    | some id =>
      if id ≥ t.names.length then .error .assertFail
      else if idMatches t s id then .ok (some id)
      else lookupLoop t s fuel (h + (1 + j)) (j + 1)

/-- `LookupId`, `sas.c:519-543`. -/
def lookupId (t : IdTab) (s : List Byte) : Except Err (Option Nat) := lookupLoop t s idHashMax (hashStr s) 0

/-- The number of a name, found or added, `sas.c:671-673`. -/
def getId (t : IdTab) (s : List Byte) : Except Err (Nat × IdTab) :=
  match lookupId t s with
  | .error e => .error e
  | .ok (some id) => .ok (id, t)
  | .ok none => addId t s

/-- `IdHash` filled with -1, `sas.c:1592`. -/
def emptyTab : IdTab := { names := [], hash := fun _ => none, bufLen := 0 }

/-- Add names one after the other. -/
def addAll : IdTab → List (List Byte) → Except Err IdTab
  | t, [] => .ok t
  | t, s :: l =>
    match addId t s with
    | .error e => .error e
    | .ok (_, t) => addAll t l

/-- The builtin names, `sas.c:1594-1605`: `AddBuiltins` (`sas.c:1554-1566`) cuts its argument at each space. -/
def builtins : List (List Byte) := List.map asc [
  "AL", "CL", "DL", "BL", "AH", "CH", "DH", "BH", "AX", "CX", "DX", "BX", "SP", "BP", "SI", "DI", "ES", "CS",
  "SS", "DS", "BYTE", "SHORT", "WORD", "CPU", "DB", "DW", "EQU", "ORG", "RESB", "RESW", "ADC", "ADD", "AND",
  "CALL", "CBW", "CLC", "CLI", "CMP", "CMPSB", "CWD", "DEC", "DIV", "IDIV", "IMUL", "INC", "INT", "JMP", "LEA",
  "LODSB", "MOV", "MOVSB", "MUL", "NEG", "NOT", "OR", "POP", "PUSH", "REP", "RET", "SAR", "SBB", "SHL", "SHR",
  "STC", "STI", "STOSB", "STOSW", "SUB", "TEST", "XCHG", "XOR", "JO", "JNO", "JC", "JNC", "JZ", "JNZ", "JNA",
  "JA", "JS", "JNS", "JPE", "JPO", "JL", "JNL", "JNG", "JG", "JB", "JNAE", "JNB", "JAE", "JE", "JNE", "JBE",
  "JNBE", "JNGE", "JGE", "JLE", "JNLE"]

/-- The token just read: `TokenType`, and the members of `TokenVal` that the type selects. -/
structure Tok where
  ty : Nat
  num : Int := 0
  str : List Byte := []
  deriving DecidableEq

/-- The globals of the lexer: the characters from `CurrentChar` on, the symbol table, the token. -/
structure Lex where
  inp : List Byte
  ids : IdTab
  tok : Tok

/-- `IsDigit`, `sas.c:559-562`. -/
def isDigit (c : Byte) : Bool := 0x30 ≤ c.toNat && c.toNat ≤ 0x39

/-- `IsAlpha`, `sas.c:564-567`. -/
def isAlpha (c : Byte) : Bool := (0x41 ≤ c.toNat && c.toNat ≤ 0x5A) || (0x61 ≤ c.toNat && c.toNat ≤ 0x7A)

/-- `IsIdChar`, `sas.c:569-572`. -/
def isIdChar (c : Byte) : Bool := isAlpha c || c == chr '_' || c == chr '.' || c == chr '$'

/-- The skipping of spaces and comments, `sas.c:622-629`; the flag says "in a comment".  A NUL ends it, as does the end of the
file.  Bytes from 0x80 on are negative and so count as spaces. -/
def skipWs : Bool → List Byte → List Byte
  | _, [] => []
  | true, c :: r => if c = 0 then c :: r else if c = 10 then skipWs false r else skipWs true r
  | false, c :: r =>
    if c = 0 then c :: r
    else if c.toInt ≤ 0x20 then skipWs false r
    else if c = chr ';' then skipWs true r
    else c :: r

/-- `n*base + CurrentChar - off` with the overflow checks of `int`. -/
def accDigit (base n : Int) (c : Byte) (off add : Int) : Except Err Int :=
  if inInt (n * base) && inInt (n * base + c.toNat) && inInt (n * base + c.toNat - off + add) then .ok (n * base + c.toNat - off + add)
  else .error .ub

/-- The loop over hexadecimal digits, `sas.c:642-652`. -/
def hexRun : Int → List Byte → Except Err (Int × List Byte)
  | n, [] => .ok (n, [])
  | n, c :: r =>
    if isDigit c then
      match accDigit 16 n c 0x30 0 with
      | .ok n => hexRun n r
      | .error e => .error e
    else if 0x41 ≤ c.toNat ∧ c.toNat ≤ 0x46 then
      match accDigit 16 n c 0x41 10 with
      | .ok n => hexRun n r
      | .error e => .error e
    else if 0x61 ≤ c.toNat ∧ c.toNat ≤ 0x66 then
      match accDigit 16 n c 0x61 10 with
      | .ok n => hexRun n r
      | .error e => .error e
    else .ok (n, c :: r)

/-- The loop over decimal digits, `sas.c:655-658`. -/
def decRun : Int → List Byte → Except Err (Int × List Byte)
  | n, [] => .ok (n, [])
  | n, c :: r =>
    if isDigit c then
      match accDigit 10 n c 0x30 0 with
      | .ok n => decRun n r
      | .error e => .error e
    else .ok (n, c :: r)

/-- A number token, `sas.c:636-661`: `c` is its first digit. -/
def lexNum (c : Byte) (r : List Byte) : Except Err (Int × List Byte) :=
  let n : Int := c.toNat - 0x30
  if n = 0 ∧ (r.headD 0 = chr 'x' ∨ r.headD 0 = chr 'X') then
    match hexRun n r.tail with
    | .ok (n, r) => decRun n r
    | .error e => .error e
  else decRun n r

/-- The body of a string token, `sas.c:678-691`: `acc` holds the characters so far.  The closing store to `StringBuf[Len]` is out
of bounds for `Len = 128`. -/
def lexStr : List Byte → List Byte → Except Err (List Byte × List Byte)
  | _, [] => .error .fatal
  | acc, c :: r =>
    if c = chr '\'' then if acc.length < 128 then .ok (acc, r) else .error .ub
    else if acc.length ≥ 128 then .error .assertFail
    else if c = 0 then .error .fatal
    else lexStr (acc ++ [c]) r

/-- The part of `TranslateIdToken` for builtin names, `sas.c:584-617`: synonyms of the conditional jumps. -/
def synonym (ty : Nat) : Nat :=
  if ty = 343 ∨ ty = 344 then 329
  else if ty = 345 ∨ ty = 346 then 330
  else if ty = 347 then 331
  else if ty = 348 then 332
  else if ty = 349 then 333
  else if ty = 350 then 334
  else if ty = 351 then 339
  else if ty = 352 then 340
  else if ty = 353 then 341
  else if ty = 354 then 342
  else ty

/-- `TranslateIdToken`, `sas.c:574-618`; `equ i` is the value of label `i` if it is an EQU constant. -/
def translateId (equ : Nat → Option Int) (ty : Nat) : Tok :=
  if ty ≥ tokUserId then
    match equ (ty - tokUserId) with
    | some v => { ty := tokNumber, num := v }
    | none => { ty }
  else { ty := synonym ty }

/-- The token starting with the character `c`, followed by `r`, `sas.c:631-714`. -/
def lexTok (equ : Nat → Option Int) (ids : IdTab) (c : Byte) (r : List Byte) : Except Err Lex :=
  if isDigit c then
    match lexNum c r with
    | .ok (n, r) => .ok { inp := r, ids, tok := { ty := tokNumber, num := n } }
    | .error e => .error e
  else if isIdChar c then
    let w := c :: r.takeWhile (fun c => isDigit c || isIdChar c)
    match getId ids (w.take 16) with
    | .ok (id, ids) => .ok { inp := r.dropWhile (fun c => isDigit c || isIdChar c), ids, tok := translateId equ (id + tokId) }
    | .error e => .error e
  else if c = chr '\'' then
    match lexStr [] r with
    | .ok (s, r) => .ok { inp := r, ids, tok := { ty := tokString, str := s } }
    | .error e => .error e
  else if c = chr '+' ∨ c = chr '-' ∨ c = chr ':' ∨ c = chr ',' ∨ c = chr '[' ∨ c = chr ']' ∨ c = chr '|' ∨ c = chr '~' then
    .ok { inp := r, ids, tok := { ty := c.toNat } }
  else if c = chr '<' ∧ r.headD 0 = chr '<' then .ok { inp := r.tail, ids, tok := { ty := tokLsh } }
  else .error .fatal

/-- `GetToken`, `sas.c:620-715`. -/
def lexStep (equ : Nat → Option Int) (l : Lex) : Except Err Lex :=
  match skipWs false l.inp with
  | [] => .ok { inp := [], ids := l.ids, tok := { ty := tokEof } }
  | c :: r => if c = 0 then .ok { inp := c :: r, ids := l.ids, tok := { ty := tokEof } } else lexTok equ l.ids c r

end Sas
