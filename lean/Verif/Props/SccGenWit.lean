import Verif.Props.SccGenExpr
/-!
# Programs which the compiler gets wrong (C42, C43)

Each program is compiled by the model of the compiler, loaded at 100h and run from there on the 8086 specification until it returns to
address 0.
-/
namespace SccWit
open I86 Text Scc

/-- A COM program after loading; the stack contains the return address 0. -/
def comCpu (img : List Byte) : Cpu :=
  { ax := 0, cx := 0, dx := 0, bx := 0, sp := 0xFFFE, bp := 0, si := 0, di := 0, es := 0, cs := 0, ss := 0, ds := 0, ip := 0x100,
    cf := none, zf := none, sf := none, of := none,
    mem := (img.foldl (fun (p : Mem 20 × Nat) b => (p.1.set p.2 b, p.2 + 1)) (Mem.const 0 20, 0x100)).1 }

/-- AX when the program returns to address 0; `none` if this does not happen within `n` instructions, for example since a jump depends on
a flag that is undefined. -/
def exits (K : Contract) : Nat → Cpu → Option Word
  | 0, _ => none
  | n + 1, c => if c.ip = 0 then some c.ax else match c.step K with
    | .next c => exits K n c
    | _ => none

/-- Compile and run. -/
def result (K : Contract) (src : List Byte) : Option Word :=
  match compile 40 src with
  | .ok (img, _) => exits K 200 (comCpu img)
  | .error _ => none

/-- Does the program compile? -/
def compiles (src : List Byte) : Bool := match compile 40 src with | .ok _ => true | .error _ => false

end SccWit

namespace Props
open I86 Text Scc SccWit

/-- A program that is compiled correctly: `5*7-(3+5)/2 = 31`. -/
example : result .real (asc "f(x,y){return x*y-(3+x)/2;}_start(){return f(5,7);}") = some 31 := by decide +kernel

/-- **C43** is violated: `x*0` is `x`. -/
theorem C43_mul_zero_violated : result .real (asc "f(x){return x*0;}_start(){return f(5);}") = some 5 := by decide +kernel

/-- **C43** is violated: `-1/2` is `-1` (it is 0 in C). -/
theorem C43_div_pow2_violated : result .real (asc "f(x){return x/2;}_start(){return f(-1);}") = some (-1) := by decide +kernel

/-- **C43** is violated: `u+1` is signed for an unsigned `u`, `65535/2` is `-1`. -/
theorem C43_unsigned_violated : result .real (asc "f(unsigned u){return (u+1)/2;}_start(){return f(65534);}") = some (-1) := by decide +kernel

/-- **C43** is violated: a constant right operand of `&&` is not looked at, `3&&0` is 1. -/
theorem C43_and_violated : result .real (asc "f(x){return x&&0;}_start(){return f(3);}") = some 1 := by decide +kernel

/-- **C43** is violated: a constant right operand of `||` is not looked at, `0||1` is 0. -/
theorem C43_or_violated : result .real (asc "f(x){return x||1;}_start(){return f(0);}") = some 0 := by decide +kernel

/-- Comparisons of constants and the negation of a comparison are rejected. -/
theorem C43_rejected : compiles (asc "f(){return 1<2;}_start(){}") = false ∧ compiles (asc "f(a,b){return -(a<b);}_start(){}") = false := by decide +kernel

/-- **C42** is violated: adding 0 sets no flags, `if(x+0)` takes the wrong branch. -/
theorem C42_add_zero_violated : result .real (asc "f(x){if(x+0)return 1;return 0;}_start(){return f(0);}") = some 1 := by decide +kernel

/-- **C42** is violated: multiplying by 1 sets no flags. -/
theorem C42_mul_one_violated : result .real (asc "f(x){if(x*1)return 1;return 0;}_start(){return f(0);}") = some 1 := by decide +kernel

/-- **C42** is violated: a shift by 0 sets no flags. -/
theorem C42_shift_zero_violated : result .real (asc "f(x,y){if(x<<y)return 1;return 0;}_start(){return f(0,0);}") = some 1 := by decide +kernel

/-- **C42** is violated: after `?:` the flags are those of the second alternative, `if(c?~x:a&b)` takes the wrong branch for the first one. -/
theorem C42_cond_violated : result .real (asc "f(c,x,a,b){if(c?~x:a&b)return 1;return 0;}_start(){return f(1,-1,1,2);}") = some 1 := by decide +kernel

/-- **C42** is violated: MUL leaves the zero flag undefined. -/
theorem C42_mul_violated : compiles (asc "f(x,y){if(x*y)return 1;return 0;}_start(){return f(0,1);}") = true ∧
    result .real (asc "f(x,y){if(x*y)return 1;return 0;}_start(){return f(0,1);}") = none := by decide +kernel

/-- **C42** is violated: DIV leaves the zero flag undefined. -/
theorem C42_div_violated : compiles (asc "f(x,y){if(x/y)return 1;return 0;}_start(){return f(0,1);}") = true ∧
    result .real (asc "f(x,y){if(x/y)return 1;return 0;}_start(){return f(0,1);}") = none := by decide +kernel

/-- **C42** is violated on sim86: INC sets no flags there; on the 8086 the program is right. -/
theorem C42_inc_violated : result .sim (asc "f(x){if(x+1)return 1;return 0;}_start(){return f(0);}") = none ∧
    result .real (asc "f(x){if(x+1)return 1;return 0;}_start(){return f(0);}") = some 1 := by decide +kernel

end Props
