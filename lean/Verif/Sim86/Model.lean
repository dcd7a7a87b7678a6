import Verif.Mem
/-!
# Model of `/repo/sim86.c` (host build, `__SCC__` undefined)

Host `int`s are 32-bit two's-complement words (`W`).  Signed overflow is undefined behaviour in C and
is a distinct outcome here (`Err.ub`), as are failed `assert`s, `Fatal`, and process exit.
`verbose` and `do_profile` are off (the code they guard only prints); the counters they maintain are not
modelled.  The operating system is the parameter `Host`.
-/

namespace Sim86

abbrev W := BitVec 32

/-- How a run of the simulator can end. -/
inductive Err
  /-- Undefined behaviour of the host C program. -/
  | ub
  /-- A failed `assert`. -/
  | assertFail
  /-- `Fatal` (`sim86.c:103-114`): message and `exit(1)`. -/
  | fatal
  /-- `exit(code)` requested by the simulated program. -/
  | exit (code : W)
  /-- The model's fuel ran out (not an outcome of the C program). -/
  | fuel
  deriving DecidableEq, Repr

/-- The operating system calls used by sim86 as an arbitrary state machine over `σ`:
`open`, `close`, `read`, `write` (`sim86.c:428,440,551,655`) and `putchar` (`sim86.c:647`). -/
structure Host (σ : Type) where
  /-- file name and "create" (vs. read-only) to descriptor (negative on failure) -/
  openFile : σ → List Byte → Bool → W × σ
  closeFile : σ → W → σ
  /-- descriptor, size to result and the bytes stored in the buffer -/
  readFile : σ → W → W → W × List Byte × σ
  writeFile : σ → W → List Byte → W × σ
  putChar : σ → W → σ

/-- The globals of `sim86.c:44-60`.  `modrm` and `seg` use -1 as "not set", here `none`. -/
structure St (σ : Type) where
  ax : W
  cx : W
  dx : W
  bx : W
  sp : W
  bp : W
  si : W
  di : W
  es : W
  cs : W
  ss : W
  ds : W
  ip : W
  flags : W
  mem : Mem 20
  modrm : Option Byte
  addr : W
  dsize : Bool
  seg : Option (Fin 4)
  world : σ

inductive Res (σ α : Type)
  | ok (a : α) (s : St σ)
  | err (e : Err) (s : St σ)

/-- The model's monad: state plus the outcomes of `Err`. -/
def M (σ α : Type) : Type := St σ → Res σ α

namespace M
variable {σ α β : Type}

def ret (a : α) : M σ α := fun s => .ok a s
def bind (x : M σ α) (f : α → M σ β) : M σ β := fun s =>
  match x s with
  | .ok a s => f a s
  | .err e s => .err e s

instance : Monad (M σ) where
  pure := M.ret
  bind := M.bind

end M

variable {σ α : Type}

def getS : M σ (St σ) := fun s => .ok s s
def modS (f : St σ → St σ) : M σ Unit := fun s => .ok () (f s)
def fail (e : Err) : M σ α := fun s => .err e s
/-- C `assert`. -/
def assertM (b : Bool) : M σ Unit := if b then pure () else fail .assertFail

/-! ## Flags, `sim86.c:34-39` -/

def FC : W := 1
def FZ : W := 0x40
def FS : W := 0x80
def FO : W := 0x800

/-- `LOAD_OFFSET`, `sim86.c:42`. -/
def LOAD_OFFSET : W := 0x100
/-- `DEFAULT_SEGMENT`, `sim86.c:50`. -/
def DEFAULT_SEGMENT : W := 0x2000

/-- `TRIM`, `sim86.c:97`. -/
def TRIM (x : W) : W := x &&& 0xffff

/-! ## Registers -/

/-- `reg[r]`, `sim86.c:44`, numbering `sim86.c:6-15`. -/
def St.reg (s : St σ) : Fin 8 → W
  | 0 => s.ax | 1 => s.cx | 2 => s.dx | 3 => s.bx | 4 => s.sp | 5 => s.bp | 6 => s.si | 7 => s.di

def St.setReg (s : St σ) (r : Fin 8) (v : W) : St σ :=
  match r with
  | 0 => { s with ax := v } | 1 => { s with cx := v } | 2 => { s with dx := v } | 3 => { s with bx := v }
  | 4 => { s with sp := v } | 5 => { s with bp := v } | 6 => { s with si := v } | 7 => { s with di := v }

/-- `sreg[r]`, `sim86.c:45`, numbering `sim86.c:17-22`. -/
def St.sreg (s : St σ) : Fin 4 → W
  | 0 => s.es | 1 => s.cs | 2 => s.ss | 3 => s.ds

def St.setSreg (s : St σ) (r : Fin 4) (v : W) : St σ :=
  match r with
  | 0 => { s with es := v } | 1 => { s with cs := v } | 2 => { s with ss := v } | 3 => { s with ds := v }

def getReg (r : Fin 8) : M σ W := fun s => .ok (s.reg r) s
def putReg (r : Fin 8) (v : W) : M σ Unit := fun s => .ok () (s.setReg r v)
def getSreg (r : Fin 4) : M σ W := fun s => .ok (s.sreg r) s
def putSreg (r : Fin 4) (v : W) : M σ Unit := fun s => .ok () (s.setSreg r v)

abbrev AX : Fin 8 := 0
abbrev CX : Fin 8 := 1
abbrev DX : Fin 8 := 2
abbrev BX : Fin 8 := 3
abbrev SP : Fin 8 := 4
abbrev BP : Fin 8 := 5
abbrev SI : Fin 8 := 6
abbrev DI : Fin 8 := 7
abbrev ES : Fin 4 := 0
abbrev CS : Fin 4 := 1
abbrev SS : Fin 4 := 2
abbrev DS : Fin 4 := 3

/-- Signed addition of C: overflow is undefined behaviour. -/
def addI (a b : W) : M σ W := if BitVec.saddOverflow a b then fail .ub else pure (a + b)

/-- Signed negation of C. -/
def negI (a : W) : M σ W := if a = BitVec.intMin 32 then fail .ub else pure (-a)

/-- `(signed char)x` converted back to `int`. -/
def schar (x : W) : W := (x.setWidth 8).signExtend 32

/-! ## Memory, `sim86.c:98, 170-205` -/

/-- `MAKEADDR`, `sim86.c:98`; `sr` is the value of the segment register.  The product and sum of trimmed
values cannot overflow. -/
def MAKEADDR (sr off : W) : W := (TRIM sr * 16 + TRIM off) &&& 0xfffff

/-- `Read8`, `sim86.c:170-181`. -/
def Read8 (sr : Fin 4) (off : W) : M σ W := fun s =>
  .ok ((s.mem.get (MAKEADDR (s.sreg sr) off).toNat).setWidth 32) s

/-- `Read16`, `sim86.c:183-186`. -/
def Read16 (sr : Fin 4) (off : W) : M σ W := do
  let l ← Read8 sr off
  let h ← Read8 sr (← addI off 1)
  pure (l ||| h <<< 8)

/-- `Write8`, `sim86.c:188-199`. -/
def Write8 (sr : Fin 4) (off val : W) : M σ Unit := fun s =>
  .ok () { s with mem := s.mem.set (MAKEADDR (s.sreg sr) off).toNat (val.setWidth 8) }

/-- `Write16`, `sim86.c:201-205` (`val>>8` is an arithmetic shift). -/
def Write16 (sr : Fin 4) (off val : W) : M σ Unit := do
  Write8 sr off val
  Write8 sr (← addI off 1) (val.sshiftRight 8)

/-- `ReadIByte`, `sim86.c:207-210`. -/
def ReadIByte : M σ W := do
  let s ← getS
  let b ← Read8 CS s.ip
  let ip ← addI s.ip 1
  modS fun s => { s with ip := ip }
  pure b

/-- `Imm16`, `sim86.c:212-216`. -/
def Imm16 : M σ W := do
  let l ← ReadIByte
  let h ← ReadIByte
  pure (l ||| h <<< 8)

/-! ## ModRM operands, `sim86.c:218-320` -/

/-- Three-bit field of a byte, e.g. `modrm>>3&7`. -/
def field (b : Byte) (k : Nat) : Fin 8 := ⟨(b.toNat >>> k) % 8, Nat.mod_lt _ (by omega)⟩

/-- `addr += x`. -/
def addAddr (x : W) : M σ Unit := do
  let s ← getS
  let a ← addI s.addr x
  modS fun s => { s with addr := a }

/-- `if (seg == -1) seg = sr;` -/
def defaultSeg (sr : Fin 4) : M σ Unit :=
  modS fun s => { s with seg := some (s.seg.getD sr) }

/-- The base/index `switch` of `ModRM`, `sim86.c:262-272`: value added to `addr` and default segment. -/
def baseIndex (rm : Fin 8) : M σ Unit := do
  let s ← getS
  match rm with
  | 0 => addAddr (← addI s.bx s.si); defaultSeg DS
  | 1 => addAddr (← addI s.bx s.di); defaultSeg DS
  | 2 => addAddr (← addI s.bp s.si); defaultSeg SS
  | 3 => addAddr (← addI s.bp s.di); defaultSeg SS
  | 4 => addAddr s.si; defaultSeg DS
  | 5 => addAddr s.di; defaultSeg DS
  | 6 => addAddr s.bp; defaultSeg SS
  | 7 => addAddr s.bx; defaultSeg DS

/-- `ModRM`, `sim86.c:218-275`.  `modrm` is assigned before the displacement is read. -/
def ModRM : M σ Unit := do
  let s ← getS
  assertM s.modrm.isNone
  let b := (← ReadIByte).setWidth 8
  modS fun s => { s with modrm := some b }
  match b.toNat / 64 with
  | 0 =>
    if field b 0 = 6 then
      addAddr (← Imm16)
      defaultSeg DS
    else baseIndex (field b 0)
  | 1 => addAddr (schar (← ReadIByte)); baseIndex (field b 0)
  | 2 => addAddr (← Imm16); baseIndex (field b 0)
  | _ => pure ()

/-- `ReadReg`, `sim86.c:277-282`. -/
def ReadReg (r : Fin 8) : M σ W := fun s =>
  if s.dsize then .ok (s.reg r) s
  else .ok ((s.reg ⟨r.val % 4, by omega⟩).sshiftRight (if 4 ≤ r.val then 8 else 0)) s

/-- `WriteReg`, `sim86.c:284-297`. -/
def WriteReg (r : Fin 8) (val : W) : M σ Unit := fun s =>
  if s.dsize then .ok () (s.setReg r val)
  else
    let r' : Fin 8 := ⟨r.val % 4, by omega⟩
    if 4 ≤ r.val then .ok () (s.setReg r' ((s.reg r' &&& 0xff) ||| val <<< 8))
    else .ok () (s.setReg r' ((s.reg r' &&& 0xff00) ||| (val &&& 0xff)))

/-- `modrm` as a byte; `assert(modrm != -1)` of `sim86.c:301`.  (In `WriteRM` the assertion is absent, but
every caller has set `modrm`.) -/
def theModrm : M σ Byte := do
  match (← getS).modrm with
  | some b => pure b
  | none => fail .assertFail

/-- `assert(seg != -1)`, `sim86.c:305,316`. -/
def theSeg : M σ (Fin 4) := do
  match (← getS).seg with
  | some b => pure b
  | none => fail .assertFail

/-- `ReadRM`, `sim86.c:299-307`. -/
def ReadRM : M σ W := do
  let b ← theModrm
  if b.toNat / 64 = 3 then ReadReg (field b 0)
  else
    let sr ← theSeg
    let s ← getS
    if s.dsize then Read16 sr s.addr else Read8 sr s.addr

/-- `WriteRM`, `sim86.c:309-320`. -/
def WriteRM (val : W) : M σ Unit := do
  let b ← theModrm
  if b.toNat / 64 = 3 then WriteReg (field b 0) val
  else
    let sr ← theSeg
    let s ← getS
    if s.dsize then Write16 sr s.addr val else Write8 sr s.addr val

/-! ## Stack, `sim86.c:322-333` -/

/-- `DoPush`, `sim86.c:322-326`. -/
def DoPush (val : W) : M σ Unit := do
  let sp ← addI (← getReg SP) (-2)
  putReg SP sp
  Write16 SS sp val

/-- `DoPop`, `sim86.c:328-333`. -/
def DoPop : M σ W := do
  let v ← Read16 SS (← getReg SP)
  let sp ← addI (← getReg SP) 2
  putReg SP sp
  pure v

/-! ## ALU, `sim86.c:335-414` -/

/-- Operand trimming at the head of `DoOp`, `sim86.c:337-340`. -/
def opTrim (dsize : Bool) (x : W) : W := if dsize then x else x &&& 0xff

/-- The `switch` of `DoOp`, `sim86.c:343-374`: result and carry vector.  Codes as in `sim86.c:24-33`. -/
def opRes (op : Fin 8) (flags l r : W) : W × W :=
  let addDone (res : W) := (res, (l &&& r) ||| ((l ||| r) &&& ~~~res))
  let subDone (res : W) := (res, (~~~l &&& r) ||| (~~~(l ^^^ r) &&& res))
  match op with
  | 0 => addDone (l + r)
  | 1 => (l ||| r, 0)
  | 2 => addDone (l + r + (flags &&& FC))
  | 3 => subDone (l - r - (flags &&& FC))
  | 4 => (l &&& r, 0)
  | 5 => subDone (l - r)
  | 6 => (l ^^^ r, 0)
  | 7 => subDone (l - r)

/-- Flag computation of `DoOp`, `sim86.c:375-384`. -/
def opFlags (dsize : Bool) (res carry : W) : W :=
  let mask : W := if dsize then 0x8000 else 0x80
  (if res &&& mask ≠ 0 then FS else 0) |||
  (if TRIM res = 0 then FZ else 0) |||
  (if carry &&& mask ≠ 0 then FC else 0) |||
  (if ((carry <<< 1) ^^^ carry) &&& mask ≠ 0 then FO else 0)

/-- `DoOp`, `sim86.c:335-385`. -/
def DoOp (op : Fin 8) (l r : W) : M σ Unit := do
  let s ← getS
  let (res, carry) := opRes op s.flags (opTrim s.dsize l) (opTrim s.dsize r)
  modS fun s => { s with flags := opFlags s.dsize res carry }
  if op ≠ 7 then WriteRM res else pure ()

/-- `ALUOp`, `sim86.c:387-402`. -/
def ALUOp (op : Fin 8) (swap : Bool) : M σ Unit := do
  ModRM
  let r := field (← theModrm) 3
  let rmval ← ReadRM
  let rval ← ReadReg r
  if swap then
    modS fun s => { s with modrm := some (0xc0#8 ||| BitVec.ofNat 8 r.val) }
    DoOp op rval rmval
  else DoOp op rmval rval

/-- `MOV`, `sim86.c:404-414`. -/
def MOV (swap : Bool) : M σ Unit := do
  ModRM
  let r := field (← theModrm) 3
  if swap then WriteReg r (← ReadRM) else WriteRM (← ReadReg r)

/-! ## Jumps, `sim86.c:458-518` -/

/-- `ip += rel`. -/
def addIp (rel : W) : M σ Unit := do
  let s ← getS
  let ip ← addI s.ip rel
  modS fun s => { s with ip := ip }

/-- `JMP`, `sim86.c:458-462`. -/
def JMP (rel : W) : M σ Unit := addIp rel

/-- The condition `switch` of `JCC`, `sim86.c:482-513`; `none` is the `Fatal` default (parity). -/
def jccCond (cc : Fin 16) (flags : W) : Option Bool :=
  let f (m : W) : Bool := flags &&& m ≠ 0
  match cc.val / 2 with
  | 0 => some (f FO)
  | 1 => some (f FC)
  | 2 => some (f FZ)
  | 3 => some (f FZ || f FC)
  | 4 => some (f FS)
  | 6 => some (!(f FS) != !(f FO))
  | 7 => some (f FZ || (!(f FS) != !(f FO)))
  | _ => none

/-- `JCC`, `sim86.c:476-518`. -/
def JCC (cc : Fin 16) : M σ Unit := do
  let rel := schar (← ReadIByte)
  match jccCond cc (← getS).flags with
  | none => fail .fatal
  | some j => if j = (cc.val % 2 == 0) then addIp rel else pure ()

/-- `DoIncDec`, `sim86.c:521-525` (`INC`/`DEC`, `sim86.c:527-537`). -/
def DoIncDec (v : W) : M σ Unit := do
  let s ← ReadRM
  WriteRM (← addI s v)

/-! ## DOS calls, `sim86.c:416-456, 539-561, 632-680` -/

/-- `ReadAsciiz`, `sim86.c:539-546`, into a buffer with `room` bytes left; writing more is undefined. -/
def ReadAsciiz : Nat → Fin 4 → W → M σ (List Byte)
  | 0, _, _ => fail .ub
  | room + 1, sr, off => do
    let ch ← Read8 sr off
    let off' ← addI off 1
    if ch = 0 then pure [] else
      let rest ← ReadAsciiz room sr off'
      pure (ch.setWidth 8 :: rest)

/-- `HandleOpen`, `sim86.c:548-561` (`char fname[64]`). -/
def HandleOpen (H : Host σ) (create : Bool) : M σ Unit := do
  let fname ← ReadAsciiz 64 DS (← getReg DX)
  let s ← getS
  let (fd, w) := H.openFile s.world fname create
  modS fun s => { s with world := w }
  if fd.slt 0 then
    modS fun s => { s with flags := s.flags ||| FC, ax := 2 }
  else
    modS fun s => { s with flags := s.flags &&& ~~~FC, ax := fd }

/-- Store bytes at consecutive linear addresses. -/
def storeBytes (m : Mem 20) (a : Nat) : List Byte → Mem 20
  | [] => m
  | b :: bs => storeBytes (m.set a b) (a + 1) bs

/-- Load bytes from consecutive linear addresses. -/
def loadBytes (m : Mem 20) (a : Nat) : Nat → List Byte
  | 0 => []
  | n + 1 => m.get a :: loadBytes m (a + 1) n

/-- `ReadToMem`, `sim86.c:416-430`: data running past the end of `mem` is undefined behaviour. -/
def ReadToMem (H : Host σ) (fd off size : W) : M σ W := do
  let s ← getS
  let a := (MAKEADDR s.ds off).toNat
  let (r, data, w) := H.readFile s.world fd size
  if 2 ^ 20 < a + data.length then fail .ub
  else
    modS fun s => { s with world := w, mem := storeBytes s.mem a data }
    pure r

/-- `WriteFromMem`, `sim86.c:432-444`: `write` reads `size` bytes starting inside `mem`. -/
def WriteFromMem (H : Host σ) (fd off size : W) : M σ W := do
  let s ← getS
  let a := (MAKEADDR s.ds off).toNat
  if size.slt 0 ∨ 2 ^ 20 < a + size.toNat then fail .ub
  else
    let (r, w) := H.writeFile s.world fd (loadBytes s.mem a size.toNat)
    modS fun s => { s with world := w }
    pure r

/-- Common end of the read and write calls, `sim86.c:657-664, 667-674`. -/
def ioResult (r : W) : M σ Unit :=
  if r.slt 0 ∨ r = 0 then modS fun s => { s with flags := s.flags ||| FC, ax := 0 }
  else modS fun s => { s with flags := s.flags &&& ~~~FC, ax := r }

/-- `INT` after the interrupt number has been fetched, `sim86.c:635-680`. -/
def intBody (H : Host σ) (intr : W) : M σ Unit := do
  if intr = 0x20 then fail (.exit 0)
  else if intr ≠ 0x21 then fail .fatal
  else
    let s ← getS
    let func := s.ax.sshiftRight 8 &&& 0xff
    if func = 0x02 then
      modS fun s => { s with world := H.putChar s.world (s.dx &&& 0xff) }
    else if func = 0x3c then HandleOpen H true
    else if func = 0x3d then HandleOpen H false
    else if func = 0x3e then
      modS fun s => { s with world := H.closeFile s.world s.bx, flags := s.flags &&& ~~~FC }
    else if func = 0x3f then ioResult (← ReadToMem H s.bx s.dx s.cx)
    else if func = 0x40 then ioResult (← WriteFromMem H s.bx s.dx s.cx)
    else if func = 0x4c then fail (.exit (s.ax &&& 0xff))
    else fail .fatal

/-- `INT`, `sim86.c:632-680`. -/
def INT (H : Host σ) : M σ Unit := do intBody H (← ReadIByte)

/-! ## String instructions, `sim86.c:919-1023` -/

/-- `reg[r] += d`. -/
def bump (r : Fin 8) (d : W) : M σ Unit := do
  putReg r (← addI (← getReg r) d)

/-- The host loops of the string instructions run at most this many times before the counter overflows. -/
def loopFuel : Nat := 2 ^ 32

/-- Loop of REP MOVSB / REP MOVSW, `sim86.c:923-928, 935-940`. -/
def repMovs (w : Bool) : Nat → M σ Unit
  | 0 => fail .fuel
  | n + 1 => do
    if (← getReg CX) = 0 then pure () else
      if w then Write16 ES (← getReg DI) (← Read16 DS (← getReg SI))
      else Write8 ES (← getReg DI) (← Read8 DS (← getReg SI))
      bump CX (-1)
      bump DI (if w then 2 else 1)
      bump SI (if w then 2 else 1)
      repMovs w n

/-- Loop of REPE CMPSB, `sim86.c:948-953`. -/
def repCmps : Nat → M σ Unit
  | 0 => fail .fuel
  | n + 1 => do
    let s ← getS
    if s.flags &&& FZ ≠ 0 ∧ s.cx ≠ 0 then
      DoOp 7 (← Read8 DS s.si) (← Read8 ES s.di)
      bump CX (-1)
      bump DI 1
      bump SI 1
      repCmps n
    else pure ()

/-- Loop of REPNE SCASB, `sim86.c:1016-1020`. -/
def repScas : Nat → M σ Unit
  | 0 => fail .fuel
  | n + 1 => do
    let s ← getS
    if s.flags &&& FZ = 0 ∧ s.cx ≠ 0 then
      DoOp 7 (s.ax &&& 0xff) (← Read8 ES s.di)
      bump CX (-1)
      bump DI 1
      repScas n
    else pure ()

/-- `while (iter--)` of STOSB / STOSW, `sim86.c:968-970, 984-987`. -/
def stosLoop (w : Bool) (v : W) : Nat → W → M σ Unit
  | 0, _ => fail .fuel
  | n + 1, iter => do
    let iter' ← addI iter (-1)
    if iter = 0 then pure () else
      if w then
        Write16 ES (← getReg DI) v
        bump DI 2
      else
        let di ← getReg DI
        bump DI 1
        Write8 ES di v
      stosLoop w v n iter'

/-- STOSB / STOSW, `sim86.c:956-989`; `reg[R_CX] -= iter` leaves 0. -/
def STOS (w : Bool) (rep : Byte) : M σ Unit := do
  let s ← getS
  let iter : W := if rep = 0xf3 then s.cx else 1
  if rep = 0xf3 then putReg CX 0
  stosLoop w s.ax loopFuel iter

/-! ## Shifts and multiplication, `sim86.c:1047-1174` -/

/-- Flags after a shift, `sim86.c:1074-1076, 1105-1107`. -/
def shiftFlags (res : W) (c : W) : W := (if c ≠ 0 then FC else 0) ||| (if res = 0 then FZ else 0)

/-- Opcode D1, `sim86.c:1047-1078`. -/
def shift1 : M σ Unit := do
  ModRM
  let v ← ReadRM
  let k := field (← theModrm) 3
  let fin (res c : W) : M σ Unit := do
    WriteRM res
    modS fun s => { s with flags := shiftFlags res c }
  match k with
  | 4 => fin (v <<< 1) (v &&& 0x8000)
  | 5 => fin (v >>> 1) (v &&& 1)
  | 7 => fin (v.sshiftRight 1) (v &&& 1)
  | _ => fail .fatal

/-- Opcode D3, `sim86.c:1079-1109`. -/
def shiftCl : M σ Unit := do
  ModRM
  let v ← ReadRM
  let a := ((← getReg CX) &&& 15).toNat
  let k := field (← theModrm) 3
  let fin (res c : W) : M σ Unit := do
    WriteRM res
    modS fun s => { s with flags := shiftFlags res c }
  match k with
  | 4 => fin (v <<< a) (if a = 0 then 0 else (v <<< (a - 1)) &&& 0x8000)
  | 5 => fin (v >>> a) (if a = 0 then 0 else (v >>> (a - 1)) &&& 1)
  | 7 => fin (v.sshiftRight a) (if a = 0 then 0 else (v >>> (a - 1)) &&& 1)
  | _ => fail .fatal

/-- Opcode F7, `sim86.c:1128-1174`.  MUL multiplies as unsigned (no overflow); DIV is unsigned; dividing by
zero, and `INT_MIN / -1`, are undefined. -/
def group3 : M σ Unit := do
  ModRM
  match field (← theModrm) 3 with
  | 2 => WriteRM (~~~(← ReadRM))
  | 3 => WriteRM (← negI (← ReadRM))
  | 4 | 5 => do
    let m ← ReadRM
    modS fun s => { s with ax := s.ax * m, dx := 0 }
  | 6 => do
    let d ← ReadRM
    assertM ((← getReg DX) == 0)
    if d = 0 then fail .ub
    else modS fun s => { s with dx := s.ax % d, ax := s.ax / d }
  | 7 => do
    let d ← ReadRM
    let s ← getS
    assertM (s.dx == if s.ax &&& 0x8000 ≠ 0 then -1 else 0)
    if d = 0 ∨ (s.ax = BitVec.intMin 32 ∧ d = -1) then fail .ub
    else modS fun s => { s with dx := s.ax.srem d, ax := s.ax.sdiv d }
  | _ => fail .fatal

/-- Opcodes FE / FF, `sim86.c:1175-1199`. -/
def group45 : M σ Unit := do
  ModRM
  match field (← theModrm) 3 with
  | 0 => DoIncDec 1
  | 1 => DoIncDec (-1)
  | 2 => do
    DoPush (← getS).ip
    let v ← ReadRM
    modS fun s => { s with ip := v }
  | _ => fail .fatal

/-- Opcodes A0..A3, `sim86.c:893-917` (the segment prefix is not looked at). -/
def movAcc (store word : Bool) : M σ Unit := do
  let off ← Imm16
  let s ← getS
  match store, word with
  | true, true => Write16 DS off s.ax
  | true, false => Write8 DS off (s.ax &&& 0xff)
  | false, true => putReg AX (← Read16 DS off)
  | false, false => putReg AX ((s.ax &&& 0xff00) ||| (← Read8 DS off))

def setDsize (b : Bool) : M σ Unit := modS fun s => { s with dsize := b }

/-- `modrm = 0xc0 | r << 3 | r` (opcodes 40..4F, `sim86.c:818, 823`). -/
def regModrm (r : Fin 8) : Byte := 0xc0#8 ||| BitVec.ofNat 8 (r.val * 9)

/-- The immediate of opcodes 04, 05, 0C, ... and 80..83, `sim86.c:798, 862`. -/
def immOperand (word : Bool) : M σ W := if word then Imm16 else do pure (schar (← ReadIByte))

/-- Opcodes 80..FF except the register groups 90..97 and B0..BF, `sim86.c:855-1203`. -/
def execHigh (H : Host σ) (rep : Byte) (n : Nat) : M σ Unit :=
  let w := n % 2 == 1
  match n with
    | 0x80 | 0x81 | 0x82 | 0x83 => do
      setDsize w
      ModRM
      let imm ← immOperand (n == 0x81)
      DoOp (field (← theModrm) 3) (← ReadRM) imm
    | 0x88 | 0x89 => do setDsize w; MOV false
    | 0x8a | 0x8b => do setDsize w; MOV true
    | 0x8c => do
      ModRM
      let r := field (← theModrm) 3
      if h : r.val < 4 then WriteRM (← getSreg ⟨r.val, h⟩) else fail .assertFail
    | 0x8d => do
      ModRM
      putReg (field (← theModrm) 3) (← getS).addr
    | 0x8e => do
      ModRM
      let r := field (← theModrm) 3
      if h : r.val < 4 then putSreg ⟨r.val, h⟩ (← ReadRM) else fail .assertFail
    | 0x98 => do putReg AX (schar (← getReg AX))
    | 0x99 => do putReg DX (if (← getReg AX) &&& 0x8000 ≠ 0 then -1 else 0)
    | 0xa0 => movAcc false false
    | 0xa1 => movAcc false true
    | 0xa2 => movAcc true false
    | 0xa3 => movAcc true true
    | 0xa4 => do assertM (rep == 0xf3); repMovs false loopFuel
    | 0xa5 => do assertM (rep == 0xf3); repMovs true loopFuel
    | 0xa6 => do
      assertM (rep == 0xf3)
      modS fun s => { s with flags := FZ }
      repCmps loopFuel
    | 0xaa => STOS false rep
    | 0xab => STOS true rep
    | 0xac => do
      assertM (rep == 0)
      setDsize false
      WriteReg AX (← Read8 DS (← getReg SI))
      bump SI 1
    | 0xad => do
      assertM (rep == 0)
      WriteReg AX (← Read16 DS (← getReg SI))
      bump SI 2
    | 0xae => do
      assertM (rep == 0xf2)
      modS fun s => { s with flags := 0 }
      repScas loopFuel
    | 0xc3 => do
      let v ← DoPop
      modS fun s => { s with ip := v }
    | 0xc6 => do
      setDsize false
      ModRM
      WriteRM (← ReadIByte)
    | 0xc7 => do
      ModRM
      WriteRM (← Imm16)
    | 0xcd => INT H
    | 0xd1 => shift1
    | 0xd3 => shiftCl
    | 0xe8 => do
      let rel ← Imm16
      DoPush (← getS).ip
      addIp rel
    | 0xe9 => do JMP (← Imm16)
    | 0xeb => do JMP (schar (← ReadIByte))
    | 0xf7 => group3
    | 0xfe => do setDsize false; group45
    | 0xff => group45
    | _ => fail .fatal

/-- One instruction whose opcode byte is `inst`, `sim86.c:787-1203`, except for the prefixes, which
are in `dispatch`. -/
def execInst (H : Host σ) (rep inst : Byte) : M σ Unit :=
  let n := inst.toNat
  let w := n % 2 == 1
  if n < 0x40 then do
    setDsize w
    let op : Fin 8 := field inst 3
    match n % 8 / 2 with
    | 0 => ALUOp op false
    | 1 => ALUOp op true
    | 2 => do
      let imm ← immOperand w
      modS fun s => { s with modrm := some 0xc0#8 }
      DoOp op (← getReg AX) imm
    | _ =>
      if n < 0x26 then
        let sr : Fin 4 := ⟨n / 8 % 4, by omega⟩
        if w then do putSreg sr (← DoPop) else do DoPush (← getSreg sr)
      else fail .assertFail
  else if n < 0x48 then do
    modS fun s => { s with modrm := some (regModrm (field inst 0)) }
    DoIncDec 1
  else if n < 0x50 then do
    modS fun s => { s with modrm := some (regModrm (field inst 0)) }
    DoIncDec (-1)
  else if n < 0x58 then do DoPush (← getReg (field inst 0))
  else if n < 0x60 then do putReg (field inst 0) (← DoPop)
  else if 0x70 ≤ n ∧ n < 0x80 then JCC ⟨n % 16, Nat.mod_lt _ (by omega)⟩
  else if 0x90 ≤ n ∧ n < 0x98 then do
    let rv ← getReg (field inst 0)
    putReg (field inst 0) (← getReg AX)
    putReg AX rv
  else if 0xb0 ≤ n ∧ n < 0xb8 then do
    setDsize false
    WriteReg (field inst 0) (← ReadIByte)
  else if 0xb8 ≤ n ∧ n < 0xc0 then do
    putReg (field inst 0) (← Imm16)
  else execHigh H rep n

/-- Fetch and execute, restarting after prefixes, `sim86.c:784-787, 804-808, 1125-1127`.  A segment prefix is
handled inside the `inst < 0x40` branch, after `dsize = inst&1` has been executed. -/
def dispatch (H : Host σ) : Nat → Byte → M σ Unit
  | 0, _ => fail .fuel
  | n + 1, rep => do
    let inst := (← ReadIByte).setWidth 8
    match inst.toNat with
    | 0x26 => do modS fun s => { s with dsize := false, seg := some ES }; dispatch H n rep
    | 0x2e => do modS fun s => { s with dsize := false, seg := some CS }; dispatch H n rep
    | 0x36 => do modS fun s => { s with dsize := false, seg := some SS }; dispatch H n rep
    | 0x3e => do modS fun s => { s with dsize := false, seg := some DS }; dispatch H n rep
    | 0xf2 => dispatch H n 0xf2
    | 0xf3 => dispatch H n 0xf3
    | _ => execInst H rep inst

/-- One iteration of the main loop, `sim86.c:755-1203`. -/
def step (H : Host σ) : M σ Unit := do
  modS fun s => { s with modrm := none, addr := 0, dsize := true, seg := none }
  dispatch H loopFuel 0

/-- `n` iterations of the main loop. -/
def run (H : Host σ) : Nat → M σ Unit
  | 0 => pure ()
  | n + 1 => do step H; run H n

/-! ## Start-up, `sim86.c:446-456, 702-752` -/

/-- `ReadFile` (`sim86.c:446-456`): the host delivers `data`, at most `65536-LOAD_OFFSET` bytes. -/
def loadImage (data : List Byte) : M σ Unit := fun s =>
  .ok () { s with mem := storeBytes s.mem (MAKEADDR s.ds LOAD_OFFSET).toNat (data.take 65280) }

/-- One argument copied to the command tail, `sim86.c:741-742`; returns the new `p`. -/
def copyArg : List Byte → W → M σ W
  | [], p => pure p
  | b :: bs, p => do
    Write8 DS (← addI 0x81 p) (b.signExtend 32)
    copyArg bs (← addI p 1)

/-- The argument loop, `sim86.c:739-743`; `i` is the index of the argument in `argv`. -/
def copyArgs : List (List Byte) → Nat → W → M σ W
  | [], _, p => pure p
  | a :: as, i, p => do
    let p ← if i ≠ 2 then do
        Write8 DS (← addI 0x81 p) 0x20
        addI p 1
      else pure p
    copyArgs as (i + 1) (← copyArg a p)

/-- Initial globals (C zero-initialises them), `sim86.c:44-60` and `sim86.c:719`. -/
def St.initial (w : σ) : St σ where
  ax := 0
  cx := 0
  dx := 0
  bx := 0
  sp := 0
  bp := 0
  si := 0
  di := 0
  es := DEFAULT_SEGMENT
  cs := DEFAULT_SEGMENT
  ss := DEFAULT_SEGMENT
  ds := DEFAULT_SEGMENT
  ip := 0
  flags := 0
  mem := Mem.const 0 20
  modrm := none
  addr := 0
  dsize := false
  seg := none
  world := w

/-- `main` up to the loop, `sim86.c:733-752`, for the arguments after the COM file's name; `argi` is the
index of that name (1 without options). -/
def startup (image : List Byte) (argi : Nat) (args : List (List Byte)) : M σ Unit := do
  loadImage image
  Write16 CS 0 0x20cd
  Write16 CS 2 (DEFAULT_SEGMENT + 0x1000)
  putReg SP 0
  let p ← copyArgs args (argi + 1) 0
  Write8 DS (← addI 0x82 p) 0x0d
  Write8 DS 0x80 p
  DoPush 0
  modS fun s => { s with ip := LOAD_OFFSET }

end Sim86
