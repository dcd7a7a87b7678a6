import Verif.I86.Spec
/-!
# `ParseArgs` of `/repo/lib.h:125-147` (and, but for the text of `Args[0]`, `/repo/scc.c:128-150`)

It runs over the program segment prefix: `m` is the 64 KB segment.  `char` is signed.  Addresses are natural numbers; the
ones used lie in the first pages of the segment.  Loops are cut off after 129 turns (`none`): the command tail has at most
127 bytes and is NUL-terminated first.
-/
namespace Lib
open I86

/-- `Args[i] = v` with `Args = _ARGV = 0x5C`, `lib.h:123,127`. -/
def setArg (m : Mem 16) (i : Nat) (v : Nat) : Mem 16 :=
  (m.set (0x5C + 2 * i) (BitVec.ofNat 8 v)).set (0x5C + 2 * i + 1) (BitVec.ofNat 8 (v / 256))

/-- `while (c(*p)) ++p;`, `lib.h:134-135` and `139-140`. -/
def skipWhile (c : Byte → Bool) (m : Mem 16) : Nat → Nat → Option Nat
  | 0, _ => none
  | fuel + 1, p => if c (m.get p) then skipWhile c m fuel (p + 1) else some p

/-- The `for` loop, `lib.h:133-144`: `p` is `CmdLine`, `n` is `NumArgs`. -/
def parseLoop : Nat → Mem 16 → Nat → Nat → Option (Mem 16 × Nat)
  | 0, _, _, _ => none
  | fuel + 1, m, p, n =>
    match skipWhile (fun b => b ≠ 0 && b.toInt ≤ 0x20) m 129 p with
    | none => none
    | some p =>
      if m.get p = 0 then some (m, n)
      else
        let m := setArg m n p
        match skipWhile (fun b => b ≠ 0 && b.toInt > 0x20) m 129 p with
        | none => none
        | some p => if m.get p = 0 then some (m, n + 1) else parseLoop fuel (m.set p 0) (p + 1) (n + 1)

/-- `ParseArgs`, `lib.h:125-147`: the memory afterwards and the number returned; `argv0` is the address of `"???"`. -/
def parseArgs (argv0 : Nat) (m : Mem 16) : Option (Mem 16 × Nat) :=
  let len := (m.get 0x80 &&& 0x7f).toNat
  let m := m.set (0x81 + len) 0
  let m := setArg m 0 argv0
  match parseLoop 129 m 0x81 1 with
  | none => none
  | some (m, n) => some (setArg m n 0, n)

end Lib
