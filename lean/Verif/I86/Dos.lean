import Verif.I86.Spec
/-!
# The DOS services used by the tool chain, and complete systems

Independent of the code in `/repo`: what the services of INT 20h / INT 21h do to the processor state, for an
arbitrary operating system `OS`.
-/
namespace I86

/-- The operating system as a state machine. -/
structure OS (σ : Type) where
  /-- File name, "create or truncate" (otherwise: existing file, read only); handle or failure. -/
  openFile : σ → List Byte → Bool → Option Word × σ
  closeFile : σ → Word → σ
  /-- Handle and size to the bytes read; `none` is reported by setting the carry flag. -/
  readFile : σ → Word → Nat → Option (List Byte) × σ
  /-- Handle and bytes to the number of bytes written. -/
  writeFile : σ → Word → List Byte → Option Word × σ
  putChar : σ → Byte → σ

/-- Outcome of a step of the whole system. -/
inductive SysOut (σ : Type)
  | next (c : Cpu) (w : σ)
  | exit (code : Byte) (w : σ)
  | undef

namespace Cpu

/-- The zero-terminated string at `seg:off`, if its terminator is among the first `n` bytes. -/
def asciiz (c : Cpu) (seg : Word) : Nat → Word → Option (List Byte)
  | 0, _ => none
  | n + 1, off =>
    let b := c.rd8 seg off
    if b = 0 then some [] else (asciiz c seg n (off + 1)).map (b :: ·)

/-- `n` bytes at `seg:off`. -/
def bytes (c : Cpu) (seg : Word) : Nat → Word → List Byte
  | 0, _ => []
  | n + 1, off => c.rd8 seg off :: bytes c seg n (off + 1)

/-- Store bytes at `seg:off`. -/
def store (c : Cpu) (seg off : Word) : List Byte → Cpu
  | [] => c
  | b :: bs => store (c.wr8 seg off b) seg (off + 1) bs

/-- The buffer `seg:off`, `n` bytes long, neither wraps in its segment nor runs past the end of memory. -/
def inSeg (seg off : Word) (n : Nat) : Prop := off.toNat + n ≤ 2 ^ 16 ∧ seg.toNat * 16 + off.toNat + n ≤ 2 ^ 20

instance (seg off : Word) (n : Nat) : Decidable (inSeg seg off n) := by unfold inSeg; infer_instance

variable {σ : Type}

/-- The DOS services; file names have at most 63 characters. -/
def dos (O : OS σ) (c : Cpu) (w : σ) : SysOut σ :=
  match (hi c.ax).toNat with
  | 0x02 => .next c (O.putChar w (lo c.dx))
  | 0x3c => openCall true
  | 0x3d => openCall false
  | 0x3e => .next { c with cf := some false } (O.closeFile w c.bx)
  | 0x3f =>
    match O.readFile w c.bx c.cx.toNat with
    | (some data, w) =>
      if inSeg c.ds c.dx data.length then
        .next { c.store c.ds c.dx data with ax := BitVec.ofNat 16 data.length, cf := some false } w
      else .undef
    | (none, w) => .next { c with ax := 0, cf := some true } w
  | 0x40 =>
    if inSeg c.ds c.dx c.cx.toNat then
      match O.writeFile w c.bx (c.bytes c.ds c.cx.toNat c.dx) with
      | (some n, w) => .next { c with ax := n, cf := some false } w
      | (none, w) => .next { c with ax := 0, cf := some true } w
    else .undef
  | 0x4c => .exit (lo c.ax) w
  | _ => .undef
where
  openCall (create : Bool) : SysOut σ :=
    match c.asciiz c.ds 64 c.dx with
    | none => .undef
    | some name =>
      match O.openFile w name create with
      | (some h, w) => .next { c with ax := h, cf := some false } w
      | (none, w) => .next { c with ax := 2, cf := some true } w

/-- Software interrupts. -/
def intr (O : OS σ) (n : Byte) (c : Cpu) (w : σ) : SysOut σ :=
  match n.toNat with
  | 0x20 => .exit 0 w
  | 0x21 => dos O c w
  | _ => .undef

/-- One step of processor and operating system. -/
def sysStep (K : Contract) (O : OS σ) (c : Cpu) (w : σ) : SysOut σ :=
  match c.step K with
  | .next c => .next c w
  | .intr n c => intr O n c w
  | .divErr _ => .undef
  | .undef => .undef

/-- `n` steps. -/
def sysRun (K : Contract) (O : OS σ) : Nat → Cpu → σ → SysOut σ
  | 0, c, w => .next c w
  | n + 1, c, w =>
    match sysStep K O c w with
    | .next c w => sysRun K O n c w
    | .exit code w => .exit code w
    | .undef => .undef

end Cpu
end I86
