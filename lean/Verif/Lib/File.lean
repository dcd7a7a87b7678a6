import Verif.Lib.Console
import Verif.I86.Dos
/-!
# The functions of `/repo/lib.h` that call DOS, running on an operating system

The operating system is that of `I86/Dos.lean`; of the processor `c` only the memory and DS matter.

Simplification: the frames of these functions are not part of the memory, so that the variables `ax` are not in the
buffers (the code of `DosCall` itself is in `Props/Lib.lean`).
-/
namespace Lib
open I86

variable {σ : Type}

/-- The result of a function: its value, or the end of the program. -/
inductive Ret (σ : Type)
  | ret (v : Word) (c : Cpu) (w : σ)
  | exit (code : Byte) (w : σ)
  | undef

/-- `DosCall`, `lib.h:54-68`; `k` gets the carry flag (the result −1 or 0), AX, and the state afterwards. -/
def callDos (O : OS σ) (c : Cpu) (w : σ) (a : Call) (k : Option Bool → Word → Cpu → σ → Ret σ) : Ret σ :=
  match Cpu.dos O { c with ax := a.ax, bx := a.bx, cx := a.cx, dx := a.dx } w with
  | .next c w => k c.cf c.ax c w
  | .exit code w => .exit code w
  | .undef => .undef

/-- What `open`, `read` and `write` do with the result: `fail` if it is not 0, otherwise AX. -/
def check (fail : Word) (cf : Option Bool) (ax : Word) (c : Cpu) (w : σ) : Ret σ :=
  match cf with
  | none => .undef
  | some true => .ret fail c w
  | some false => .ret ax c w

/-- `open`, `lib.h:88-99`. -/
def openF (O : OS σ) (c : Cpu) (w : σ) (filename flags : Word) : Ret σ :=
  callDos O c w ⟨if flags ≠ 0 then 0x3c00 else 0x3d00, 0, 0, filename⟩ (check (-1))

/-- `close`, `lib.h:101-105`; it has no value. -/
def closeF (O : OS σ) (c : Cpu) (w : σ) (fd : Word) : Ret σ :=
  callDos O c w ⟨0x3e00, fd, 0, 0⟩ fun _ _ c w => .ret 0 c w

/-- `read`, `lib.h:107-113`. -/
def readF (O : OS σ) (c : Cpu) (w : σ) (fd buf count : Word) : Ret σ :=
  callDos O c w ⟨0x3f00, fd, count, buf⟩ (check 0)

/-- `write`, `lib.h:115-121`. -/
def writeF (O : OS σ) (c : Cpu) (w : σ) (fd buf count : Word) : Ret σ :=
  callDos O c w ⟨0x4000, fd, count, buf⟩ (check 0)

/-- The calls of a function of `Lib/Console.lean`, one after the other. -/
def runCalls (O : OS σ) : List Call → Cpu → σ → Ret σ
  | [], c, w => .ret 0 c w
  | a :: as, c, w => callDos O c w a fun _ _ c w => runCalls O as c w

end Lib
