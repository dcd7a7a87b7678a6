import Verif.Swar.Model
import Verif.Lib.Printf
/-!
# The text of `/repo/swar.c`

`DrawChar`, `DrawStr`, `ShowTankInfo` and the message of the winner, `swar.c:451-475,568-569`.  `font` is the segment `FONT_SEG`
(it is in the ROM, drawing does not change it); a string is the list of its bytes before the NUL; `sprintf` is `vsprintf` of
`Lib/Printf.lean`.  `none` is an access outside an array.
-/
namespace Swar
open I86

/-- The pixels `DrawChar` draws, with their colours, in order, `swar.c:451-461`. -/
def charPix (font : Word → Byte) (x y ch fg bg : Word) : List (Word × Word × Word) :=
  (List.range 8).flatMap fun cy =>
    let row : Word := (font (0x000e + ch * 8 + BitVec.ofNat 16 cy)).setWidth 16
    (List.range 8).map fun cx =>
      (x + BitVec.ofNat 16 cx, y + BitVec.ofNat 16 cy, if (row <<< cx) &&& 0x80 ≠ 0 then fg else bg)

/-- Drawing a list of pixels. -/
def drawCols (m : Mem 16) : List (Word × Word × Word) → Option (Mem 16)
  | [] => some m
  | (x, y, c) :: ps => (putPixel m x y c).bind fun m => drawCols m ps

/-- `DrawStr`, `swar.c:463-469`; `*str` is a signed `char`. -/
def drawStr (font : Word → Byte) (m : Mem 16) (x y fg bg : Word) : List Byte → Option (Mem 16)
  | [] => some m
  | ch :: str => (drawCols m (charPix font x y (ch.signExtend 16) fg bg)).bind fun m => drawStr font m (x + 8) y fg bg str

/-- `sprintf` into an array of 32 bytes, `swar.c:472-473,536`, `lib.h:238-244`. -/
def sprintf32 (f : List Byte) (args : List Word) : Option (List Byte) :=
  (Lib.vsprintf (fun _ => []) f args).bind fun s => if s.length + 1 ≤ 32 then some s else none

/-- `"Ang %3d  Pwr %3d"`, `swar.c:473`. -/
def infoFmt : List Byte :=
  [0x41, 0x6e, 0x67, 0x20, 0x25, 0x33, 0x64, 0x20, 0x20, 0x50, 0x77, 0x72, 0x20, 0x25, 0x33, 0x64]

/-- `ShowTankInfo`, `swar.c:470-475`; `c` is the colour of the tank. -/
def showTankInfo (font : Word → Byte) (m : Mem 16) (ang pow c : Word) : Option (Mem 16) :=
  (sprintf32 infoFmt [(ang * 180).sshiftRight 7, pow]).bind fun s => drawStr font m 0 0 c 0 s

/-- `"Player %d wins!"`, `swar.c:568`. -/
def winFmt : List Byte :=
  [0x50, 0x6c, 0x61, 0x79, 0x65, 0x72, 0x20, 0x25, 0x64, 0x20, 0x77, 0x69, 0x6e, 0x73, 0x21]

/-- The message of the winner, `swar.c:568-569`. -/
def showWinner (font : Word → Byte) (m : Mem 16) (hit : Word) : Option (Mem 16) :=
  (sprintf32 winFmt [4 - hit]).bind fun s =>
    drawStr font m ((320 - 8 * BitVec.ofNat 16 s.length).sdiv 2) ((200 : Word).sdiv 2 - 4) (hit ^^^ 1) 0 s

end Swar
