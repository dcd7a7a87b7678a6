import Verif.I86.Spec
/-!
# `vsprintf` of `/repo/lib.h:165-236`

The function is only compiled by `scc` itself (`#ifdef __SCC__`), so `int` is a 16-bit word with wrapping arithmetic,
`char` is a signed byte, and `/` and `%` truncate.

Simplifications: format, arguments and destination do not overlap, so the format is the list of its bytes before the NUL,
the result the list of bytes written before the final NUL; `strAt p` is the string at address `p`.
The outcome `none` is undefined behaviour: the format ends inside a directive, an argument is missing, the temporary
buffer is overrun, or a shift count is at least 16.
-/
namespace Lib
open I86

/-- The `Restart` loop, `lib.h:176-184`: fill character, width, and the character of the directive. -/
def fmtWidth : List Byte → Word → Byte → Option (Byte × List Byte × Word × Byte)
  | [], _, _ => none
  | ch :: f, w, fill =>
    if w = 0 ∧ ch = 0x30 then fmtWidth f w 0x30
    else if 0x30 ≤ ch.toInt ∧ ch.toInt ≤ 0x39 then fmtWidth f (w * 10 + ch.signExtend 16 - 0x30) fill
    else some (ch, f, w, fill)

/-- The digit loop, `lib.h:208-212`: `room` is the number of free bytes in front of `buf` in `TempBuf`, `w` the width. -/
def fmtDigits : Nat → Word → List Byte → Word → Option (Nat × List Byte × Word)
  | 0, _, _, _ => none
  | room + 1, n, buf, w =>
    let buf := (0x30 + n.srem 10).setWidth 8 :: buf
    let n := n.sdiv 10
    let w := w - 1
    if n = 0 then some (room, buf, w) else fmtDigits room n buf w

/-- `%d` and `%+d`, `lib.h:189-221`.  `TempBuf` has 9 bytes, one of which is the NUL. -/
def fmtDec (n : Word) (w : Word) (fill : Byte) (always : Bool) : Option (List Byte) :=
  let s := n.toInt < 0
  let n := if s then -n else n
  match fmtDigits 8 n [] w with
  | none => none
  | some (room, buf, w) =>
    match (if s then some (0x2d : Byte) else if always then some 0x2b else none) with
    | some c => if room = 0 then none else some (List.replicate (w - 1).toInt.toNat fill ++ c :: buf)
    | none => some (List.replicate w.toInt.toNat fill ++ buf)

/-- `HexD[k]`, `lib.h:223`. -/
def hexD (k : Nat) : Byte := if k < 10 then BitVec.ofNat 8 (0x30 + k) else BitVec.ofNat 8 (0x41 + (k - 10))

/-- The loop of `%x`, `lib.h:227-229`, for `i = k-1 … 0`. -/
def fmtHexLoop (n : Word) : Nat → Option (List Byte)
  | 0 => some []
  | i + 1 =>
    if 16 ≤ i * 4 then none
    else (fmtHexLoop n i).map (hexD ((n.sshiftRight (i * 4)) &&& 0xf).toNat :: ·)

/-- `%x` and `%X`, `lib.h:222-229`: the number of digits is `i + 1`, none if `i` is negative. -/
def fmtHex (n w : Word) : Option (List Byte) :=
  let i : Word := if w = 0 then 3 else w - 1
  fmtHexLoop n (i.toInt + 1).toNat

/-- One directive, `lib.h:174-232`, after the `%`: what it writes, the rest of the format and the remaining arguments. -/
def directive (strAt : Word → List Byte) (f : List Byte) (args : List Word) :
    Option (List Byte × List Byte × List Word) :=
  match fmtWidth f 0 0x20 with
  | none => none
  | some (ch, f, w, fill) =>
    if ch = 0x73 then
      match args with
      | [] => none
      | a :: args => some (strAt a, f, args)
    else if ch = 0x63 then
      match args with
      | [] => none
      | a :: args => some ([a.setWidth 8], f, args)
    else if (ch = 0x2b ∧ f.head? = some 0x64) ∨ ch = 0x64 then
      match args with
      | [] => none
      | a :: args =>
        (fmtDec a w fill (ch = 0x2b)).map fun out => (out, if ch = 0x2b then f.tail else f, args)
    else if ch = 0x78 ∨ ch = 0x58 then
      match args with
      | [] => none
      | a :: args => (fmtHex a w).map fun out => (out, f, args)
    else some ([ch], f, args)

/-- The loop of `vsprintf`, `lib.h:169-233`, at most `fuel` times round: the bytes written. -/
def vsprintfLoop (strAt : Word → List Byte) : Nat → List Byte → List Word → Option (List Byte)
  | 0, _, _ => none
  | _ + 1, [], _ => some []
  | fuel + 1, ch :: f, args =>
    if ch ≠ 0x25 then (vsprintfLoop strAt fuel f args).map (ch :: ·)
    else
      match directive strAt f args with
      | none => none
      | some (out, f, args) => (vsprintfLoop strAt fuel f args).map (out ++ ·)

/-- `vsprintf`, `lib.h:165-236`: every turn of the loop consumes a byte of the format. -/
def vsprintf (strAt : Word → List Byte) (f : List Byte) (args : List Word) : Option (List Byte) :=
  vsprintfLoop strAt (f.length + 1) f args

end Lib
