import Verif.Mem
/-!
# The readers of sas.c, scc.c and scpp.c

The operating system is a parameter: a schedule says how many bytes each call of `read` delivers.  A call delivers at least one byte
while there are any, at most as many as asked for, and none at the end of the file.  Errors of `read` are not modelled.
-/
namespace Input

/-- An open file: the bytes not yet read. -/
structure File where
  rest : List Byte
  deriving Inhabited

/-- The number of bytes delivered by a call that asks for `n`, when the schedule has `want`. -/
def deliver (want n : Nat) (rest : List Byte) : Nat := min (max 1 want) (min n rest.length)

/-- Memory of a buffer. -/
abbrev Buf := Nat → Byte

/-- `read` stores the bytes at the beginning of the buffer. -/
def fill (buf : Buf) (l : List Byte) : Buf := fun i => l.getD i (buf i)

/-! ## sas.c -/

/-- `InBuf`, `InBufCnt`, `InBufSize`, `CurrentChar` (`sas.c:400-406`) and the file; `calls` counts the calls of `read`. -/
structure Sas where
  buf : Buf
  cnt : Nat
  size : Nat
  cur : Byte
  rest : List Byte
  calls : Nat

/-- Before the first character: global variables are zero. -/
def Sas.init (data : List Byte) : Sas := { buf := fun _ => 0, cnt := 0, size := 0, cur := 0, rest := data, calls := 0 }

/-- `ReadChar`, `sas.c:545-557` (without the line count); `none` is an access outside `InBuf`. -/
def Sas.readChar (sched : Nat → Nat) (s : Sas) : Option Sas :=
  if s.cnt = s.size then
    let k := deliver (sched s.calls) 512 s.rest
    let s := { s with cnt := 0, size := k, buf := fill s.buf (s.rest.take k), rest := s.rest.drop k, calls := s.calls + 1 }
    if k = 0 then some { s with cur := 0 }
    else some { s with cur := s.buf 0, cnt := 1 }
  else if s.cnt < 512 then some { s with cur := s.buf s.cnt, cnt := s.cnt + 1 }
  else none

/-! ## scc.c -/

/-- `InBuf`, `InBufPtr` (an index), `CurChar` (`scc.c:351-354`). -/
structure Scc where
  buf : Buf
  ptr : Nat
  cur : Byte
  rest : List Byte
  calls : Nat

/-- `scc.c:3441`. -/
def Scc.init (data : List Byte) : Scc := { buf := fun _ => 0, ptr := 0, cur := 0, rest := data, calls := 0 }

/-- Store the terminator, `scc.c:548`, `scpp.c:471`. -/
def term (buf : Buf) (k : Nat) : Buf := fun i => if i = k then 0 else buf i

/-- `NextChar`, `scc.c:542-554`; `none` is an access outside `InBuf[513]`. -/
def Scc.nextChar (sched : Nat → Nat) (s : Scc) : Option Scc :=
  if ¬ s.ptr < 513 then none
  else if s.buf s.ptr ≠ 0 then some { s with cur := s.buf s.ptr, ptr := s.ptr + 1 }
  else
    let k := deliver (sched s.calls) 512 s.rest
    let s := { s with ptr := 0, buf := term (fill s.buf (s.rest.take k)) k, rest := s.rest.drop k, calls := s.calls + 1 }
    if k = 0 then some { s with cur := 0 }
    else some { s with cur := s.buf 0, ptr := 1 }

/-- The inline version with `NextChar` as the fallback, e.g. `scc.c:689-692`, `715-718`, `920-923`. -/
def Scc.fastChar (sched : Nat → Nat) (s : Scc) : Option Scc :=
  if ¬ s.ptr < 513 then none
  else
    let s1 := { s with cur := s.buf s.ptr, ptr := s.ptr + 1 }
    if s1.cur ≠ 0 then some s1 else { s1 with ptr := s1.ptr - 1 }.nextChar sched

/-! ## scpp.c -/

/-- `struct File`, `scpp.c:354-362`, without the name and the line. -/
structure PFile where
  buf : Buf := fun _ => 0
  ptr : Nat := 0
  last : Byte := 0
  rest : List Byte := []

/-- `Files`, `NumFiles`, `CurFileBuf`, `CurrentChar`.  `CurFile` is `Files[num-1]`. -/
structure Pp where
  files : Nat → PFile
  num : Nat
  ptr : Nat
  cur : Byte
  calls : Nat

def updF (fs : Nat → PFile) (i : Nat) (f : PFile) : Nat → PFile := fun j => if j = i then f else fs j

/-- `ReadChar`, `scpp.c:457-472`; `none` is an access outside `Buf[512]`. -/
def Pp.readChar (sched : Nat → Nat) (s : Pp) : Option Pp :=
  let f := s.files (s.num - 1)
  if ¬ s.ptr < 512 then none
  else if f.buf s.ptr ≠ 0 then some { s with cur := f.buf s.ptr, ptr := s.ptr + 1 }
  else
    let k := deliver (sched s.calls) 511 f.rest
    let buf := fill f.buf (f.rest.take k)
    let f' := { f with buf := term buf k, rest := f.rest.drop k }
    let s := { s with files := updF s.files (s.num - 1) f', calls := s.calls + 1 }
    if k = 0 then some { s with ptr := 0, cur := 0 }
    else some { s with ptr := 1, cur := buf 0 }

/-- The inline version, e.g. `scpp.c:474-482`, `708-711`, `739-742`. -/
def Pp.fastChar (sched : Nat → Nat) (s : Pp) : Option Pp :=
  if ¬ s.ptr < 512 then none
  else
    let s1 := { s with cur := (s.files (s.num - 1)).buf s.ptr, ptr := s.ptr + 1 }
    if s1.cur ≠ 0 then some s1 else { s1 with ptr := s1.ptr - 1 }.readChar sched

/-- The input part of `HandleInclude` up to the last `ReadChar`, `scpp.c:1379-1387`, with `OpenFile`, `scpp.c:433-447`.  The assertions
are `none`. -/
def Pp.enter (data : List Byte) (s : Pp) : Option Pp :=
  if ¬ s.ptr < 512 then none
  else if ¬ s.num < 4 then none
  else some { s with
    files := updF (updF s.files (s.num - 1) { s.files (s.num - 1) with last := s.cur, ptr := s.ptr }) s.num { rest := data }
    num := s.num + 1, ptr := 0 }

/-- The end of a file, `scpp.c:1508-1514`, with `CloseFile`, `scpp.c:449-455`. -/
def Pp.leave (s : Pp) : Pp :=
  { s with num := s.num - 1, cur := (s.files (s.num - 2)).last, ptr := (s.files (s.num - 2)).ptr }

/-- `main`, `scpp.c:1588-1591`: the output file is `Files[0]`, the input `Files[1]`. -/
def Pp.init (data : List Byte) : Pp :=
  { files := updF (fun _ => {}) 1 { rest := data }, num := 2, ptr := 0, cur := 0, calls := 0 }

/-- What the preprocessor does with its input: the next character (in the two ways), an include, the end of an included file. -/
inductive Op
  | read
  | fast
  | enter (data : List Byte)
  | leave

/-- One operation, with the character it leaves in `CurrentChar`. -/
def Pp.op (sched : Nat → Nat) (s : Pp) : Op → Option Pp
  | .read => s.readChar sched
  | .fast => s.fastChar sched
  | .enter d => s.enter d
  | .leave => if s.num > 2 then some s.leave else none

/-- The characters after each operation. -/
def Pp.run (sched : Nat → Nat) : Pp → List Op → Option (List Byte)
  | _, [] => some []
  | s, o :: l => do
    let s ← s.op sched o
    let cs ← s.run sched l
    pure (s.cur :: cs)

end Input
