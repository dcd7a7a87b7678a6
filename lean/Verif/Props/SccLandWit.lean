import Verif.Props.SccLand
import Verif.Props.SccGenWit
/-!
# Jumps and labels (C36): a history and programs that are wrong
-/
namespace SccLayout
open Prog Scc SccCode SccGen SccJump SccFix

/-- The state after a function. -/
def after (x : A Unit) (s : S) : S := match x s with | .ok _ s' => s' | .err _ => s

def goes (x : A Unit) (s : S) : Bool := match x s with | .ok _ _ => true | .err _ => false

theorem goes_ok {x : A Unit} {s : S} (h : goes x s = true) : x s = .ok () (after x s) := by
  unfold goes at h
  unfold after
  cases hx : x s with
  | ok v s' => rfl
  | err e => rw [hx] at h; exact absurd h (fun h => Bool.noConfusion h)

/-- Two labels, no code. -/
def h0 : S := { (init []) with labelCount := 0, code := 0x102 }
def h1 : S := after (do let _ ← makeLabel) h0
def h2 : S := after (do let _ ← makeLabel) h1
def h3 : S := after (emitJcc 4 0) h2
def h4 : S := after (output [0x90]) h3
def h5 : S := after (emitJmp 1) h4
def h6 : S := after (emitLocalLabel 0) h5
def h7 : S := after (output [0x40]) h6
def h8 : S := after (emitLocalLabel 1) h7

/-- `if (…) NOP; else INC AX;`: a conditional jump to the label 0, NOP, a jump to the label 1, the label 0, INC AX, the label 1. -/
theorem hist : Built 0x102 [.lab 1, .raw [0x40], .lab 0, .jmp 1, .raw [0x90], .jcc 4 0] h8 := by
  have b0 : Built 0x102 [] h0 := .start rfl rfl (by decide) (by decide)
  have b1 : Built 0x102 [] h1 := .new b0 (l := 0) rfl
  have b2 : Built 0x102 [] h2 := .new b1 (l := 1) rfl
  have b3 := Built.jcc (s' := h3) (cc := 4) (l := 0) b2 ⟨by decide +kernel, by decide +kernel, by decide +kernel⟩ (by decide) (by decide +kernel) (by unfold Room; decide +kernel) (goes_ok (by decide +kernel))
  have b4 := Built.raw (s' := h4) (bs := [0x90]) b3 ⟨by decide +kernel, by decide +kernel, by decide +kernel⟩ (by decide) (fun _ => ⟨_, _, rfl, by decide, fun h => absurd h (by decide)⟩) (by unfold Room; decide +kernel) (goes_ok (by decide +kernel))
  have b5 := Built.jmp (s' := h5) (l := 1) b4 (by decide +kernel) (by decide +kernel) (by decide +kernel) rfl (by unfold Room; decide +kernel) (goes_ok (by decide +kernel))
  have b6 := Built.lab (s' := h6) (l := 0) b5 (by decide +kernel) (by decide +kernel) (by unfold Room; decide +kernel) (fun h => absurd h (by decide)) (goes_ok (by decide +kernel))
  have b7 := Built.raw (s' := h7) (bs := [0x40]) b6 ⟨by decide +kernel, by decide +kernel, by decide +kernel⟩ (by decide) (fun _ => ⟨_, _, rfl, by decide, fun h => absurd h (by decide)⟩) (by unfold Room; decide +kernel) (goes_ok (by decide +kernel))
  exact Built.lab (s' := h8) (l := 1) b7 (by decide +kernel) (by decide +kernel) (by unfold Room; decide +kernel) (fun h => absurd h (by decide)) (goes_ok (by decide +kernel))

end SccLayout

namespace Props
open I86 Text Scc SccWit SccLayout

/-- The hypothesis of `C36_local_partial` can be met. -/
example : ∃ cs : List Chunk, cs.map Chunk.item = [.lab 1, .raw [0x40], .lab 0, .jmp 1, .raw [0x90], .jcc 4 0] ∧ Tile 0x102 cs h8.code := by
  obtain ⟨cs, h1, h2, _⟩ := C36_local_partial _ _ _ hist
  exact ⟨cs, h1, h2⟩

/-- The code of this history: JE to 10Bh, NOPs, NOP, a short jump to 10Ch and the rest of the long one, INC AX. -/
example : (image h8).drop 2 = [0x74, 0x07, 0x88, 0xC0, 0x90, 0x90, 0xEB, 0x02, 0x90, 0x40] := by decide +kernel

/-- **C36** is violated: the byte behind a conditional jump is looked at before it is written.  Here it is left from the string literal and
looks like that of a return, so that `if(x);` returns. -/
theorem C36_stale_violated :
    result .real (asc "f(x){\"]]]]]]]]]]]]]]]]]]]]]]]]]]]]]]]]]]]]]]]]]]]]]]]]\";if(x);return 7;}_start(){return f(5);}") = some 5 ∧
    result .real (asc "f(x){\"aaaaaaaaaaaaaaaaaaaaaaaaaaaaaaaaaaaaaaaaaaaaaaaa\";if(x);return 7;}_start(){return f(5);}") = some 7 := by decide +kernel

/-- **C36** is violated: `EmitGlobalLabel` sets the address of a function before it removes the jump in front of it.  If `_start` is the first
function it begins at 102h, but the call at 11Dh goes to 105h; with another function in front of it all is well. -/
theorem C36_start_violated :
    ((compile 40 (asc "_start(x){if(x==7)return 9;return _start(7);}")).toOption.map fun r => ((r.1.drop 2).take 3, (r.1.drop 0x1D).take 3)) =
      some ([0x55, 0x89, 0xE5], [0xE8, 0xE5, 0xFF]) ∧
    result .real (asc "_start(x){if(x==7)return 9;return _start(7);}") = none ∧
    result .real (asc "f(){}_start(x){if(x==7)return 9;return _start(7);}") = some 9 := by decide +kernel

end Props
