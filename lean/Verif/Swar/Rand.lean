import Verif.Swar.Model
/-!
# The random numbers of the terrain, `/repo/swar.c:523-526`
-/
namespace Swar
open I86

/-- `do { s = Rand() & 7; } while (s == 7);`, `swar.c:524-526`, at most `fuel` times round: the new seed and `s`. -/
def draw : Nat → Word → Option (Word × Word)
  | 0, _ => none
  | fuel + 1, seed =>
    if (rand seed).2 &&& 7 = 7 then draw fuel (rand seed).1 else some ((rand seed).1, (rand seed).2 &&& 7)

/-- What the loop over `n` columns gets, `swar.c:519-528`. -/
def draws (fuel : Nat) : Nat → Word → Option (List Word)
  | 0, _ => some []
  | n + 1, seed =>
    match draw fuel seed with
    | none => none
    | some (seed, s) => (draws fuel n seed).map (s :: ·)

end Swar
