import Verif.I86.Spec
/-!
# The game `/repo/swar.c`

As compiled by `scc` (`__SCC__`): `int` is a 16-bit word with wrapping arithmetic, `>>` is arithmetic, `char` is signed.
The frame buffer is the segment `VIDEO_SEG`, reached through `FarPeek`/`FarPoke` (see `Props/Lib.lean`).
`none` is an access outside an array.

Not modelled: the Windows window and the font (`swar.c:54-314`), the timing.  The shot of `Fire` is in
`Swar/Fire.lean` (its result is a parameter of `keyStep`), the text in `Swar/Text.lean`.
-/
namespace Swar
open I86

/-- `YTab[y]` as filled in by `main`, `swar.c:337,506-508`. -/
def yTab (y : Word) : Option Word :=
  if 0 ≤ y.toInt ∧ y.toInt < 200 then some ((y.sshiftRight 1 * 80) ||| ((y &&& 1) <<< 13)) else none

/-- `XMask[x]`, `swar.c:338,511-512`. -/
def xMask (x : Word) : Byte :=
  let shift := 6 - (x &&& 3) * 2
  (~~~ ((3 : Word) <<< shift.toNat)).setWidth 8

/-- `Col[c][x]`, `swar.c:339,513-515`. -/
def col (c x : Word) : Byte :=
  let shift := 6 - (x &&& 3) * 2
  (c <<< shift.toNat).setWidth 8

/-- `ReadPixel`, `swar.c:352-358`. -/
def readPixel (m : Mem 16) (x y : Word) : Option Word :=
  let r := (3 - (x &&& 3)) <<< 1
  (yTab y).map fun t =>
    let x := x.sshiftRight 2 + t
    (((m.get x.toNat).setWidth 16).sshiftRight r.toNat) &&& 3

/-- `PutPixel` with the colour `Col[c]`, `swar.c:360-367`. -/
def putPixel (m : Mem 16) (x y c : Word) : Option (Mem 16) :=
  let r := x &&& 3
  (yTab y).map fun t =>
    let x := x.sshiftRight 2 + t
    let old := (m.get x.toNat).setWidth 16
    m.set x.toNat (((old &&& (xMask r).signExtend 16) ||| (col c r).signExtend 16).setWidth 8)

/-- `CosTab`, `swar.c:316`. -/
def cosTab : List Byte :=
  [0x00, 0xFF, 0xFF, 0xFF, 0xFE, 0xFE, 0xFD, 0xFC, 0xFB, 0xF9, 0xF8, 0xF6, 0xF4, 0xF3, 0xF1, 0xEE,
   0xEC, 0xEA, 0xE7, 0xE4, 0xE1, 0xDE, 0xDB, 0xD8, 0xD4, 0xD1, 0xCD, 0xC9, 0xC5, 0xC1, 0xBD, 0xB9,
   0xB5, 0xB0, 0xAB, 0xA7, 0xA2, 0x9D, 0x98, 0x93, 0x8E, 0x88, 0x83, 0x7E, 0x78, 0x73, 0x6D, 0x67,
   0x61, 0x5C, 0x56, 0x50, 0x4A, 0x44, 0x3E, 0x38, 0x31, 0x2B, 0x25, 0x1F, 0x19, 0x12, 0x0C, 0x06]

/-- `ICos`, `swar.c:317-324`. -/
def icos (ang : Word) : Word :=
  let q := ang.sshiftRight 6 &&& 3
  let r : Word := (cosTab.getD ((if q &&& 1 ≠ 0 then -ang else ang) &&& 63).toNat 0).setWidth 16
  let r := if r = 0 ∧ q &&& 1 = 0 then r ||| 0x100 else r
  if (q.sshiftRight 1 ^^^ (q &&& 1)) ≠ 0 then -r else r

/-- `ISin`, `swar.c:326-329`. -/
def isin (ang : Word) : Word := icos (ang - 64)

/-- `Rand`, `swar.c:344-350`: the new seed and the result. -/
def rand (seed : Word) : Word × Word :=
  let b := seed &&& 1
  let seed := seed.sshiftRight 1
  let seed := if b ≠ 0 then seed ^^^ 0xb40 else seed
  (seed, seed &&& 0x7fff)

/-- One column of the terrain, `swar.c:520-522,527`: the entry of `Grass` and the next `y`; `s` is what `Rand` gave. -/
def grassStep (y s : Word) : Word × Word :=
  let y : Word := if y.toInt < 20 then 20 else if y.toInt > 200 - 20 then 200 - 20 else y
  (y, y + (s - 3))

/-- The loop over the columns, `swar.c:518-528`. -/
def grass (y : Word) : List Word → List Word
  | [] => []
  | s :: ss => (grassStep y s).1 :: grass (grassStep y s).2 ss

/-- The pixels `DrawTurret` draws, `swar.c:370-382`, in order. -/
def turret (x y ang : Word) : List (Word × Word) :=
  let tx := (x + 4) <<< 7
  let ty := (y + 6) <<< 7
  let ca := (icos ang).sshiftRight 1
  let sa := (-isin ang).sshiftRight 1
  (List.range 6).map fun i =>
    ((tx + BitVec.ofNat 16 i * ca).sshiftRight 7 &&& 0x1ff, (ty + BitVec.ofNat 16 i * sa).sshiftRight 7)

/-- The pixels `DrawBody` draws, `swar.c:441-449`. -/
def body (x y : Word) : List (Word × Word) :=
  (List.range 4).flatMap fun ty => (List.range 9).map fun tx =>
    (x + BitVec.ofNat 16 tx, y + BitVec.ofNat 16 ty + 7)

/-- Drawing a list of pixels in a colour. -/
def drawAll (m : Mem 16) (c : Word) : List (Word × Word) → Option (Mem 16)
  | [] => some m
  | (x, y) :: ps => (putPixel m x y c).bind fun m => drawAll m c ps

/-- The part of `struct Tank`, `swar.c:331-334`, that changes. -/
structure Tank where
  ang : Word
  pow : Word

/-- The state of the game loop: the tanks, and whether the second one is `cur`, `swar.c:538-554`. -/
structure Game where
  t1 : Tank
  t2 : Tank
  second : Bool
  done : Bool

/-- `swar.c:538-553`. -/
def init : Game := { t1 := ⟨32, 100⟩, t2 := ⟨96, 100⟩, second := false, done := false }

/-- The angle stored by `UpdateTurrent`, `swar.c:487-491`. -/
def updateAng (ang : Word) : Word :=
  let ang := if ang.toInt < 0 then ang + 129 else ang
  if ang.toInt > 128 then ang - 129 else ang

/-- The second `switch` on a key, `swar.c:579-606`. -/
def tankKey (t : Tank) (ch : Word) : Tank :=
  let (t, ang) : Tank × Word :=
    if ch = 0x4B00 then (t, t.ang + 1)
    else if ch = 0x4D00 then (t, t.ang - 1)
    else if ch = 0x4800 then ({ t with pow := if (t.pow + 1).toInt ≥ 100 then 100 else t.pow + 1 }, t.ang)
    else if ch = 0x5000 then ({ t with pow := if (t.pow - 1).toInt < 0 then 0 else t.pow - 1 }, t.ang)
    else if ch = 0x4900 then ({ t with pow := 100 }, t.ang)
    else if ch = 0x5100 then ({ t with pow := 0 }, t.ang)
    else (t, t.ang)
  if ang ≠ t.ang then { t with ang := updateAng ang } else t

/-- One key press, `swar.c:555-609`; `hit` is the result of `Fire` should the key fire. -/
def keyStep (g : Game) (ch hit : Word) : Game :=
  if g.done then g
  else if ch &&& 0xff = 27 then { g with done := true }
  else if ch &&& 0xff = 0x20 ∨ ch &&& 0xff = 13 then
    if hit = 2 ∨ hit = 3 then { g with done := true } else { g with second := !g.second }
  else if g.second then { g with t2 := tankKey g.t2 ch }
  else { g with t1 := tankKey g.t1 ch }

end Swar
