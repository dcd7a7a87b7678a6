import Verif.I86.Reach
/-!
# The machine code in `/repo/swar.c`

The `_emit` sequences of the calls to the BIOS, byte for byte, with the frame around them as in `Lib/Code.lean`.
Not modelled: `inb` (`swar.c:41-46`), as the specified processor has no ports.
-/
namespace Swar
open I86

/-- `Int10h`, `swar.c:19-24`. -/
def int10h : List Byte := [0x8B, 0x46, 0x04, 0x8B, 0x5E, 0x06, 0xCD, 0x10]

/-- `KeyPressed`, `swar.c:26-33`. -/
def keyPressed : List Byte := [0xB4, 0x01, 0xCD, 0x16, 0xB8, 0x00, 0x00, 0x74, 0x01, 0x40]

/-- `ReadKey`, `swar.c:35-39`. -/
def readKey : List Byte := [0xB4, 0x00, 0xCD, 0x16]

end Swar
