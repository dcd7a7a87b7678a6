import Verif.I86.Reach
/-!
# The machine code in `/repo/lib.h`

The `_emit` sequences, byte for byte.  `scc` puts a frame around them (`PUSH BP; MOV BP,SP` before, `MOV SP,BP; POP BP;
RET` after), so the arguments are at `[BP+4]`, `[BP+6]`, …
-/
namespace Lib
open I86

/-- `lib.h:38-44`. -/
def memcpy : List Byte := [0x8B, 0x7E, 0x04, 0x8B, 0x76, 0x06, 0x8B, 0x4E, 0x08, 0xF3, 0xA4]

/-- `lib.h:46-52`. -/
def memset : List Byte := [0x8B, 0x7E, 0x04, 0x8B, 0x46, 0x06, 0x8B, 0x4E, 0x08, 0xF3, 0xAA]

/-- `lib.h:54-68`. -/
def dosCall : List Byte := [0x8B, 0x5E, 0x04, 0x36, 0x8B, 0x07, 0x8B, 0x5E, 0x06, 0x8B, 0x4E, 0x08, 0x8B, 0x56, 0x0A,
  0xCD, 0x21, 0x8B, 0x5E, 0x04, 0x36, 0x89, 0x07, 0xB8, 0x00, 0x00, 0x19, 0xC0]

/-- `lib.h:272-284`. -/
def strcmp : List Byte := [0x8B, 0x76, 0x04, 0x8B, 0x7E, 0x06, 0xAC, 0x8A, 0x25, 0x47, 0x28, 0xE0, 0x75, 0x04, 0x20, 0xE4,
  0x75, 0xF4, 0x98]

/-- `lib.h:286-296`. -/
def strlen : List Byte := [0x8B, 0x4E, 0x04, 0x89, 0xCE, 0xAC, 0x20, 0xC0, 0x75, 0xFB, 0x96, 0x29, 0xC8, 0x48]

/-- `lib.h:298-301`. -/
def getBP : List Byte := [0x8B, 0x46, 0x00]

/-- `lib.h:303-306`. -/
def getDS : List Byte := [0x8C, 0xD8]

/-- `lib.h:308-316`. -/
def farPeek : List Byte := [0x1E, 0x8E, 0x5E, 0x04, 0x8B, 0x76, 0x06, 0xAC, 0x30, 0xE4, 0x1F]

/-- `lib.h:318-326`. -/
def farPoke : List Byte := [0x06, 0x8E, 0x46, 0x04, 0x8B, 0x7E, 0x06, 0x8A, 0x46, 0x08, 0xAA, 0x07]

/-- `lib.h:328-335`. -/
def clock : List Byte := [0x31, 0xC0, 0x8E, 0xD8, 0xA1, 0x6C, 0x04, 0x0E, 0x1F]

end Lib
