import Verif.Props.SccFold
/-!
# Compiled expressions (C43): the language and a description of the code generator

`E` are the expressions over `int` constants and `int` local variables with the unary operators `-`, `!`, `~`, `+` and the sixteen binary
operators without assignment and short circuit.  `ev` is their value.  `gen` describes the code which the compiler emits; `SccGenRun`
proves that the model of the compiler emits exactly this code and `SccGenExec` that the code computes the value.
-/
namespace SccGen
open Scc SccCode I86
open I86.Cpu hiding lo hi rd

/-! ## Specification -/

inductive UOp | neg | not | bnot | plus
  deriving DecidableEq, Repr

/-- Expressions; a variable is given by the number of its identifier. -/
inductive E
  | lit (v : Int)
  | var (x : Nat)
  | un (o : UOp) (a : E)
  | bin (o : BOp) (a b : E)

/-- The value of a unary operator. -/
def UOp.sem : UOp → Word → Word
  | .neg, w => -w
  | .not, w => b2w (w == 0)
  | .bnot, w => ~~~w
  | .plus, w => w

/-- The value of an expression in C with 16-bit integers that wrap around, `none` if it is undefined. -/
def ev (ρ : Nat → Word) : E → Option Word
  | .lit v => some (BitVec.ofInt 16 v)
  | .var x => some (ρ x)
  | .un o a => (ev ρ a).map o.sem
  | .bin o a b => (ev ρ a).bind fun v => (ev ρ b).bind fun w => o.sem false v w

def UOp.tok : UOp → Nat
  | .neg => 0x2D | .not => 0x21 | .bnot => 0x7E | .plus => 0x2B

/-- The precedence of the tokens for unary operators: `-` and `+` are also binary operators. -/
def UOp.prec : UOp → Nat
  | .neg => 4 | .not => precStop | .bnot => precStop | .plus => 4

/-- Precedence levels of C, 3 binds tightest. -/
def _root_.SccCode.BOp.prec : BOp → Nat
  | .mul => 3 | .div => 3 | .mod => 3 | .add => 4 | .sub => 4 | .shl => 5 | .shr => 5 | .lt => 6 | .le => 6 | .gt => 6 | .ge => 6
  | .eq => 7 | .ne => 7 | .and => 8 | .xor => 9 | .or => 10

/-- Tokens: numbers, identifiers, operators with their precedence. -/
inductive Tk
  | num (v : Int)
  | id (x : Nat)
  | sym (t p : Nat)

def Tk.tok : Tk → Nat
  | .num _ => tokNum
  | .id x => x + tokKeyword
  | .sym t _ => t

def Tk.prec : Tk → Nat
  | .num _ => precStop
  | .id _ => precStop
  | .sym _ p => p

/-- The grammar: `Shows q e ts` if `ts` is an expression with the tree `e` whose outermost binary operators bind at least as tight as
the level `q`.  Binary operators are left associative. -/
inductive Shows : Nat → E → List Tk → Prop
  | lit (q : Nat) (v : Int) : Shows q (.lit v) [.num v]
  | var (q x : Nat) : Shows q (.var x) [.id x]
  | par (q : Nat) {e : E} {ts : List Tk} (h : Shows 10 e ts) : Shows q e (.sym 0x28 precStop :: ts ++ [.sym 0x29 precStop])
  | un (q : Nat) (o : UOp) {e : E} {ts : List Tk} (h : Shows 0 e ts) : Shows q (.un o e) (.sym o.tok o.prec :: ts)
  | bin (q : Nat) (o : BOp) {a b : E} {ts us : List Tk} (hq : o.prec ≤ q) (ha : Shows o.prec a ts) (hb : Shows (o.prec - 1) b us) :
      Shows q (.bin o a b) (ts ++ .sym o.tok o.prec :: us)

/-! ## Constant expressions -/

def UOp.fold : UOp → Int → Int
  | .neg, x => -x
  | .not, x => if x = 0 then 1 else 0
  | .bnot, x => -x - 1
  | .plus, x => x

def fit (v : Int) : Option Int := if -32768 ≤ v ∧ v < 32768 then some v else none

/-- The exact value of an operator on constants, if it is defined and an `int`.  Comparisons of constants are not constants here. -/
def _root_.SccCode.BOp.exact (o : BOp) (x y : Int) : Option Int :=
  match o with
  | .add => fit (x + y)
  | .sub => fit (x - y)
  | .mul => fit (x * y)
  | .div => if y = 0 then none else fit (x.tdiv y)
  | .mod => if y = 0 then none else some (x.tmod y)
  | .and => some (BitVec.ofInt 16 x &&& BitVec.ofInt 16 y).toInt
  | .xor => some (BitVec.ofInt 16 x ^^^ BitVec.ofInt 16 y).toInt
  | .or => some (BitVec.ofInt 16 x ||| BitVec.ofInt 16 y).toInt
  | .shl => if 0 ≤ x ∧ 0 ≤ y ∧ y < 16 then fit (x * 2 ^ y.toNat) else none
  | .shr => if 0 ≤ y ∧ y < 16 then some (x >>> y.toNat) else none
  | _ => none

/-- The value of a constant expression. -/
def cst : E → Option Int
  | .lit v => some v
  | .var _ => none
  | .un o a => (cst a).map o.fold
  | .bin o a b =>
    match cst a, cst b with
    | some x, some y => o.exact x y
    | _, _ => none

/-- Does a comparison or `!` give the value? -/
def isTest : E → Bool
  | .un .not _ => true
  | .un .plus a => isTest a
  | .bin o _ _ => decide (o.cc false ≠ 0)
  | _ => false

/-- Does adding `x` set the zero flag?  For small numbers the compiler uses INC and DEC; `i` if these set the flag. -/
def Sets (i : Bool) (x : Int) : Prop := x ≠ 0 ∧ (i = true ∨ x < -2 ∨ 2 < x)

def big (i : Bool) (c : Option Int) : Prop := ∀ x, c = some x → Sets i x

/-- The last instruction for the expression sets the zero flag by the value if it is an operation of the ALU; `i` if INC and DEC set it. -/
def ZfOk (i : Bool) : E → Prop
  | .un .plus a => ZfOk i a
  | .bin o a b => o.cc false ≠ 0 ∨ o = .and ∨ o = .xor ∨ o = .or ∨ o = .sub ∧ big i (cst b) ∨ o = .add ∧ big i (cst a) ∧ big i (cst b)
  | _ => True

/-- The expressions that are compiled: all constants (also those of subexpressions) are `int`s, constants are not compared, a test is no
operand of `-` and `~`. -/
def Stat : E → Prop
  | .lit v => In16 v
  | .var _ => True
  | .un o a => Stat a ∧ (o = .neg ∨ o = .bnot → cst a = none → isTest a = false) ∧ ∀ x, cst a = some x → In16 (o.fold x)
  | .bin o a b => Stat a ∧ Stat b ∧ ∀ x y, cst a = some x → cst b = some y → (o.exact x y).isSome = true

/-- The expressions that are compiled correctly: no multiplication by the constant 0, no division of a negative number by a constant power
of two greater than 1, and `!` of an operator only if its last instruction sets the zero flag (`i` if INC and DEC do). -/
def Dyn (i : Bool) (ρ : Nat → Word) : E → Prop
  | .lit _ => True
  | .var _ => True
  | .un o a => Dyn i ρ a ∧ (o = .not → cst a = none → ZfOk i a)
  | .bin o a b => Dyn i ρ a ∧ Dyn i ρ b ∧ (cst (.bin o a b) = none → o = .mul → cst a ≠ some 0 ∧ cst b ≠ some 0) ∧
      (cst a = none → o = .div → ∀ k : Nat, cst b = some (2 ^ (k + 1)) → ∀ w, ev ρ a = some w → 0 ≤ w.toInt)

/-- The variables of an expression. -/
def Vars : E → List Nat
  | .lit _ => []
  | .var x => [x]
  | .un _ a => Vars a
  | .bin _ a b => Vars a ++ Vars b

/-- The number of values that are kept while the expression is evaluated. -/
def nest : E → Nat
  | .lit _ => 0
  | .var _ => 0
  | .un _ a => nest a
  | .bin _ a b => max (nest a) (1 + nest b)

/-! ## The code generator -/

/-- Where the value is: a constant, a variable, AX (and whether the compiler takes the zero flag for that of AX), the flags. -/
inductive Kd
  | lit (v : Int)
  | var (x : Nat)
  | reg (skip : Bool)
  | flag (cc : Nat)

/-- Code, place of the value, is BX in use afterwards? -/
structure G where
  bs : List Byte
  kd : Kd
  r : Bool

/-- An instruction with a register and a variable. -/
def modB (inst r : Nat) (v : Int) : List Byte :=
  if fits8 v then [nb inst, nb (0x46 ||| r * 8), Scc.lo v] else [nb inst, nb (0x86 ||| r * 8), Scc.lo v, Scc.hi v]

/-- `FlushPushAx`: AX is saved in BX, BX on the stack. -/
def flB (p r : Bool) : List Byte := if p then (if r then [0x53] else []) ++ [0x93] else []

variable (off : Nat → Int)

/-- `LvalToRval`; `p` if AX must be saved first. -/
def toReg (p : Bool) (g : G) : G :=
  match g.kd with
  | .var x => ⟨g.bs ++ flB p g.r ++ modB 0x8B 0 (off x), .reg false, p || g.r⟩
  | _ => g

/-- `GetVal` (except for constants). -/
def toVal (p : Bool) (g : G) : G :=
  match (toReg off p g).kd with
  | .flag cc => ⟨(toReg off p g).bs ++ boolBytes cc, .reg false, (toReg off p g).r⟩
  | _ => toReg off p g

/-- The place of the value of a binary operator. -/
def binKd (o : BOp) : Kd := if o.cc false = 0 then .reg true else .flag (o.cc false)

/-- The instructions for a left operand in AX and a variable. -/
def rhsVar (o : BOp) (v : Int) : List Byte :=
  match o.alu false with
  | some (inst, _) => modB (inst ||| 3) 0 v
  | none => [0x91] ++ modB 0x8B 0 v ++ (if opCommutes o.tok then [] else [0x91]) ++ binBytes false o 1

/-- The instructions for a saved left operand and a right operand in AX; `r` if the left one is in BX. -/
def rhsReg (o : BOp) (r : Bool) : List Byte :=
  if opCommutes o.tok then (if r then binBytes false o 3 else [0x59] ++ binBytes false o 1)
  else [0x91] ++ (if r then [0x93] else [0x58]) ++ binBytes false o 1

/-- A constant left operand; `g` is the right one. -/
def genLitL (o : BOp) (x : Int) (g : G) : G :=
  if opCommutes o.tok then ⟨g.bs ++ constBytes false o x, binKd o, g.r⟩
  else ⟨g.bs ++ (movCx x ++ [0x91] ++ binBytes false o 1), binKd o, g.r⟩

/-- A left operand in AX after `as`, and the right operand. -/
def genRhs (o : BOp) (as : List Byte) (r : Bool) (g : G) : G :=
  match g.kd with
  | .lit y => ⟨as ++ constBytes false o y, binKd o, r⟩
  | .var x => ⟨as ++ rhsVar o (off x), binKd o, r⟩
  | _ => ⟨as ++ (toVal off false g).bs ++ rhsReg o (toVal off false g).r, binKd o, false⟩

def genUn (o : UOp) (g : G) : G :=
  match o, g.kd with
  | .neg, _ => ⟨g.bs ++ [0xF7, 0xD8], .reg false, g.r⟩
  | .bnot, _ => ⟨g.bs ++ [0xF7, 0xD0], .reg false, g.r⟩
  | .plus, _ => g
  | .not, .flag cc => ⟨g.bs, .flag (cc ^^^ 1), g.r⟩
  | .not, .reg skip => ⟨g.bs ++ (if skip then [] else [0x21, 0xC0]), .flag 4, g.r⟩
  | .not, _ => g

/-- The code for an expression.  `p`: AX holds a value that must be saved before code is emitted; `r`: so does BX. -/
def gen : E → Bool → Bool → G
  | .lit v, _, r => ⟨[], .lit v, r⟩
  | .var x, _, r => ⟨[], .var x, r⟩
  | .un o a, p, r =>
    match cst a with
    | some x => ⟨[], .lit (o.fold x), r⟩
    | none => genUn o (toReg off p (gen a p r))
  | .bin o a b, p, r =>
    match cst a with
    | some x =>
      match cst b with
      | some y => ⟨[], .lit ((o.exact x y).getD 0), r⟩
      | none => genLitL o x (toVal off p (gen b p r))
    | none => genRhs off o (toVal off p (gen a p r)).bs (toVal off p (gen a p r)).r (gen b true (toVal off p (gen a p r)).r)

end SccGen
