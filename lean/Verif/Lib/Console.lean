import Verif.Lib.Printf
/-!
# The console output of `/repo/lib.h`

The result of a function is the list of the calls of DOS it makes (`DosCall` is in `Props/Lib.lean`), in order.  `none` is
undefined behaviour: reading past the memory given, or overrunning `msg`.

Simplification: DOS returns to the program (except for `exit`) and does not change its memory.
-/
namespace Lib
open I86

/-- The registers given to INT 21h by `DosCall`, `lib.h:54-68`. -/
structure Call where
  ax : Word
  bx : Word
  cx : Word
  dx : Word

/-- `exit`, `lib.h:70-74`. -/
def exit (retval : Word) : Call := ⟨(retval.setWidth 8).setWidth 16 ||| 0x4c00, 0, 0, 0⟩

/-- `raw_putchar`, `lib.h:76-80`. -/
def rawPutchar (ch : Word) : List Call := [⟨0x200, 0, 0, ch⟩]

/-- `putchar`, `lib.h:82-86`. -/
def putchar (ch : Word) : List Call := (if ch = 0x0a then rawPutchar 0x0d else []) ++ rawPutchar ch

/-- `PutStr`, `lib.h:246-249`; the argument is the memory from `s` on. -/
def putStr : List Byte → Option (List Call)
  | [] => none
  | b :: s => if b = 0 then some [] else (putStr s).map (putchar (b.signExtend 16) ++ ·)

/-- `printf`, `lib.h:251-259`; `msg` has 256 bytes. -/
def printf (strAt : Word → List Byte) (f : List Byte) (args : List Word) : Option (List Call) :=
  match vsprintf strAt f args with
  | none => none
  | some out => if 256 < out.length + 1 then none else putStr (out ++ [0])

/-- `puts`, `lib.h:261-265`. -/
def puts (s : List Byte) : Option (List Call) := (putStr s).map (· ++ putchar 0x0a)

/-- `"%X %X\n"`, `lib.h:344`. -/
def fmtFrame : List Byte := [0x25, 0x58, 0x20, 0x25, 0x58, 0x0a]

/-- The loop of `assert`, `lib.h:343-346`, at most `fuel` times round; `rd` reads a word of the stack. -/
def backtrace (strAt : Word → List Byte) (rd : Word → Word) : Nat → Word → Option (List Call)
  | 0, _ => none
  | fuel + 1, bp =>
    if rd bp = 0 then some []
    else
      match printf strAt fmtFrame [rd bp, rd (bp + 2)] with
      | none => none
      | some a => (backtrace strAt rd fuel (rd bp)).map (a ++ ·)

/-- `"Assertion failed\n"`, `lib.h:340`. -/
def msgFailed : List Byte := [0x41, 0x73, 0x73, 0x65, 0x72, 0x74, 0x69, 0x6f, 0x6e, 0x20, 0x66, 0x61, 0x69, 0x6c, 0x65, 0x64, 0x0a]

/-- `"\nBP   Return address\n"`, `lib.h:342`. -/
def msgHead : List Byte :=
  [0x0a, 0x42, 0x50, 0x20, 0x20, 0x20, 0x52, 0x65, 0x74, 0x75, 0x72, 0x6e, 0x20, 0x61, 0x64, 0x64, 0x72, 0x65, 0x73, 0x73, 0x0a]

/-- `assert`, `lib.h:337-349`; `bp` is what `GetBP` returns, the BP of the frame of `assert`. -/
def assert (strAt : Word → List Byte) (rd : Word → Word) (fuel : Nat) (res bp : Word) : Option (List Call) :=
  if res ≠ 0 then some []
  else
    match printf strAt msgFailed [], printf strAt msgHead [], backtrace strAt rd fuel bp with
    | some a, some b, some c => some (a ++ b ++ c ++ [exit 1])
    | _, _, _ => none

end Lib
