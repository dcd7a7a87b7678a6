import Verif.Swar.Fire
import Verif.Swar.Text
/-!
# `main` of `/repo/swar.c`

`swar.c:494-612` as compiled by `scc`, without the BIOS calls for the video mode and the keyboard: `mainInit` is what is done before
the loop, `mainKey` what is done for a key that `ReadKey` returns.  The loop of `Fire` is given 1000 turns (C55 shows that they are enough).
`none` is an access outside an array, or that `Fire` does not end.
-/
namespace Swar
open I86

/-- The frame buffer and the variables of `main`.  The columns of the tanks are 20 and 300, their colours `Col[2]` and `Col[3]`. -/
structure World where
  m : Mem 16
  g : Game
  y1 : Word
  y2 : Word

/-- `*cur`, `swar.c:553`. -/
def World.cur (w : World) : Tank := if w.g.second then w.g.t2 else w.g.t1
/-- `cur->x`, `swar.c:539,545`. -/
def World.x (w : World) : Word := if w.g.second then 300 else 20
/-- `cur->y`, `swar.c:540,546`. -/
def World.y (w : World) : Word := if w.g.second then w.y2 else w.y1
/-- `cur->c`, `swar.c:543,549`. -/
def World.c (w : World) : Word := if w.g.second then 3 else 2

/-- `ShowTankInfo(cur)`. -/
def World.show (font : Word → Byte) (w : World) : Option World :=
  (showTankInfo font w.m w.cur.ang w.cur.pow w.c).map fun m => { w with m := m }

/-- `DrawTank`, `swar.c:477-481`. -/
def drawTank (m : Mem 16) (x y ang c : Word) : Option (Mem 16) :=
  (drawAll m c (body x y)).bind fun m => drawAll m c (turret x y ang)

/-- `UpdateTurrent`, `swar.c:483-492`, but for the store of the angle. -/
def updateTurrent (m : Mem 16) (x y old ang c : Word) : Option (Mem 16) :=
  (drawAll m 0 (turret x y old)).bind fun m => drawAll m c (turret x y (updateAng ang))

/-- The pixels of the terrain, `swar.c:530-534`. -/
def terrain (gs : List Word) : List (Word × Word) :=
  gs.zipIdx.flatMap fun p => (List.range (200 - p.1.toInt).toNat).map fun k => (BitVec.ofNat 16 p.2, p.1 + BitVec.ofNat 16 k)

/-- `swar.c:517-554`; `ss` is what `Rand` gives for the columns of the terrain (without the sevens). -/
def mainInit (font : Word → Byte) (m : Mem 16) (ss : List Word) : Option World :=
  let gs := grass 100 ss
  (drawAll m 1 (terrain gs)).bind fun m =>
  gs[24]?.bind fun g1 =>
  gs[304]?.bind fun g2 =>
  (drawTank m 20 (g1 - 11) 32 2).bind fun m =>
  (drawTank m 300 (g2 - 11) 96 3).bind fun m =>
  World.show font { m := m, g := init, y1 := g1 - 11, y2 := g2 - 11 }

/-- `ang` after the second `switch`, `swar.c:579-587`. -/
def keyAng (t : Tank) (ch : Word) : Word := if ch = 0x4B00 then t.ang + 1 else if ch = 0x4D00 then t.ang - 1 else t.ang

/-- A key, `swar.c:557-607`. -/
def mainKey (font : Word → Byte) (w : World) (ch : Word) : Option World :=
  if w.g.done then some w
  else if ch &&& 0xff = 27 then some { w with g := { w.g with done := true } }
  else if ch &&& 0xff = 0x20 ∨ ch &&& 0xff = 13 then
    match fireLoop 1000 (fireInit w.m w.x w.y w.cur.ang w.cur.pow) with
    | some (some (m, hit)) =>
      if hit = 2 ∨ hit = 3 then (showWinner font m hit).map fun m => { w with m := m, g := { w.g with done := true } }
      else World.show font { w with m := m, g := { w.g with second := !w.g.second } }
    | _ => none
  else if ch = 0x4B00 ∨ ch = 0x4D00 ∨ ch = 0x4800 ∨ ch = 0x5000 ∨ ch = 0x4900 ∨ ch = 0x5100 then
    let t := tankKey w.cur ch
    (if keyAng w.cur ch ≠ w.cur.ang then updateTurrent w.m w.x w.y w.cur.ang (keyAng w.cur ch) w.c else some w.m).bind fun m =>
      World.show font { w with m := m, g := if w.g.second then { w.g with t2 := t } else { w.g with t1 := t } }
  else some w

/-- The keys one after the other. -/
def mainKeys (font : Word → Byte) (w : World) : List Word → Option World
  | [] => some w
  | ch :: keys => (mainKey font w ch).bind fun w => mainKeys font w keys

end Swar
