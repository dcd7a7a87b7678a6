import Verif.Mem
/-!
# Output of the preprocessor and output file names

`OutputStr` with its buffer, `/repo/scpp.c:1469-1480` and `scpp.c:1620`, and the functions `MakeOutputFilename` of the three programs.
-/

namespace Scpp.Output

/-- The output file, `scpp.c:354-362`: the array `Buf` of 512 bytes, the index of `BufPtr`, and the calls of `write` so far. -/
structure OutFile where
  buf : Mem 9
  ptr : Nat
  writes : List (List Byte)

/-- `sizeof(OutFile->Buf)`, `FILE_BUF_SIZE` (`scpp.c:296`). -/
def size : Nat := 512

/-- The first `n` bytes of the buffer. -/
def prefix_ (m : Mem 9) (n : Nat) : List Byte := (List.range n).map m.get

/-- `write(OutFile->FD, OutFile->Buf, n)`; `none` when that reads beyond the buffer. -/
def write (f : OutFile) (n : Nat) : Option OutFile :=
  if n ≤ size then some { f with writes := f.writes ++ [prefix_ f.buf n] } else none

/-- `OutputStr`, `scpp.c:1469-1480`, for the characters of a string before its NUL.  `none`: a store beyond the buffer. -/
def outputStr : List Byte → OutFile → Option OutFile
  | [], f => if f.ptr < size then some { f with buf := f.buf.set f.ptr 0 } else none
  | c :: cs, f =>
    if f.ptr < size then
      let f := { f with buf := f.buf.set f.ptr c, ptr := f.ptr + 1 }
      if f.ptr ≠ size then outputStr cs f
      else match write f size with
        | none => none
        | some f => outputStr cs { f with ptr := 0 }
    else none

/-- A sequence of calls. -/
def outputAll : List (List Byte) → OutFile → Option OutFile
  | [], f => some f
  | l :: ls, f => match outputStr l f with
    | none => none
    | some f => outputAll ls f

/-- `OpenFile` (`memset` to zero, `scpp.c:438-439`), the calls of `OutputStr`, and the last `write` (`scpp.c:1620`). -/
def session (ls : List (List Byte)) : Option (List (List Byte)) :=
  match outputAll ls { buf := Mem.const 0 9, ptr := 0, writes := [] } with
  | none => none
  | some f => (write f f.ptr).map (·.writes)

end Scpp.Output

namespace OutName

/-- Store at index `i` of an array of `cap` characters. -/
def store (cap : Nat) (m : Nat → Byte) (i : Nat) (b : Byte) : Option (Nat → Byte) :=
  if i < cap then some fun j => if j = i then b else m j else none

/-- `strcpy` (`scpp.c:237`, `sas.c:231`, `CopyStr` of `scc.c:429`) of a string to index `i`. -/
def strcpy (cap : Nat) (m : Nat → Byte) (i : Nat) : List Byte → Option (Nat → Byte)
  | [] => store cap m i 0
  | c :: cs => match store cap m i c with
    | none => none
    | some m => strcpy cap m (i + 1) cs

/-- `MakeOutputFilename`: `scpp.c:1561-1572`, `sas.c:1568-1578`, `scc.c:3369-3379`; the loop, with `dest` and `LastDot`. -/
def loop (cap : Nat) (ext : List Byte) (m : Nat → Byte) (dest : Nat) (last : Option Nat) : List Byte → Option (Nat → Byte)
  | [] => strcpy cap m (last.getD dest) ext
  | c :: cs => match store cap m dest c with
    | none => none
    | some m => loop cap ext m (dest + 1) (if c = 0x2E then some dest else last) cs

/-- The C string at index `i`; `n` bounds its length. -/
def cstr (m : Nat → Byte) : Nat → Nat → List Byte
  | 0, _ => []
  | n + 1, i => if m i = 0 then [] else m i :: cstr m n (i + 1)

/-- The name in the array of `cap` characters; `none` when the array overflows. -/
def make (cap : Nat) (ext n : List Byte) : Option (List Byte) := (loop cap ext (fun _ => 0) 0 none n).map (cstr · cap 0)

/-- The array and the extension of `scpp` (`Temp`, `scpp.c:1582`), `sas` (`StringBuf`, `sas.c:422`) and `scc` (`IdBuffer`,
`scc.c:363`). -/
def scpp (n : List Byte) : Option (List Byte) := make 64 [0x2E, 0x69] n
def sas (n : List Byte) : Option (List Byte) := make 128 [0x2E, 0x63, 0x6F, 0x6D] n
def scc (n : List Byte) : Option (List Byte) := make 5000 [0x2E, 0x63, 0x6F, 0x6D] n

end OutName
