import Verif.Swar.Model
/-!
# The shot of `/repo/swar.c`

`Fire`, `swar.c:386-439`.  `ScreenUpdate` (the wait for the vertical retrace, `swar.c:50-54`) has no effect on the state and is
left out; the parameter `n` of `fireLoop` bounds the number of turns of the loop, `some none` is that it was not enough.
-/
namespace Swar
open I86

/-- `INSCREEN`, `swar.c:384`. -/
def inScreen (x y : Word) : Bool :=
  decide (x.toInt ≥ 0) && decide (x.toInt < 320) && decide (y.toInt ≥ 0) && decide (y.toInt < 200)

/-- `if (INSCREEN(x, y)) PutPixel(x, y, Col[c]);`, `swar.c:411-412,435-436`. -/
def putIn (m : Mem 16) (x y c : Word) : Option (Mem 16) :=
  if inScreen x y then putPixel m x y c else some m

/-- The video memory and the variables of `Fire`, `swar.c:388-399`. -/
structure Shot where
  m : Mem 16
  ca : Word
  sa : Word
  tx : Word
  ty : Word
  lx : Word
  ly : Word
  ssa : Word

/-- The variables before the loop, `swar.c:388-399`; `x`, `y`, `ang`, `pow` are the members of the tank. -/
def fireInit (m : Mem 16) (x y ang pow : Word) : Shot :=
  let ca := (icos ang).sshiftRight 1
  let sa := (-isin ang).sshiftRight 1
  { m := m, tx := ((x + 4) <<< 7) + ca * 6, ty := ((y + 6) <<< 7) + sa * 6, lx := -1, ly := 0,
    ca := (ca * pow).sdiv 100, sa := (sa * pow).sdiv 100, ssa := 0 }

/-- How a turn of the loop ends: with the next one, or with the end of `Fire` and its result. -/
inductive Turn
  | go (s : Shot)
  | stop (m : Mem 16) (r : Word)

/-- `swar.c:425-432`. -/
def fireMove (s : Shot) (m : Mem 16) (sx sy : Word) : Shot :=
  { m := m, lx := sx, ly := sy, tx := s.tx + s.ca, ty := s.ty + s.sa, ca := s.ca, sa := s.sa + s.ssa.sshiftRight 10, ssa := s.ssa + 5 }

/-- A turn of the loop, `swar.c:401-433`, with what follows its `break`, `swar.c:435-438`. -/
def fireStep (s : Shot) : Option Turn :=
  let sx := s.tx.sshiftRight 7 &&& 0x1ff
  let sy := s.ty.sshiftRight 7
  if sx.toInt < 0 ∨ sx.toInt ≥ 320 ∨ sy.toInt ≥ 200 then
    (putIn s.m s.lx s.ly 0).map fun m => .stop m 0
  else
    (putIn s.m s.lx s.ly 0).bind fun m =>
      if inScreen sx sy then
        (if sy.toInt > 8 then readPixel m sx sy else some 0).bind fun hit =>
          if hit ≠ 0 then (putPixel m sx sy 0).map fun m => .stop m hit
          else (putPixel m sx sy 1).map fun m => .go (fireMove s m sx sy)
      else some (.go (fireMove s m sx sy))

/-- At most `n` turns of the loop. -/
def fireLoop : Nat → Shot → Option (Option (Mem 16 × Word))
  | 0, _ => some none
  | n + 1, s =>
    (fireStep s).bind fun
      | .go s => fireLoop n s
      | .stop m r => some (some (m, r))

end Swar
