import Verif.Props.SccGenCond
import Verif.Props.SccLand
/-!
# Compiled statements (C49): the language and a description of the code generator

`St` are statements over the expressions `E` of C43: assignments to `int` local variables, `if`, `while`, `do`, `for`, `break`, `continue`,
`return`, blocks, and assignments of the value of a call; the assignments also with an operator (`+=`), and `++` and `--`.  Conditions may be combined by `&&` and `||`.  `Exec` is their meaning.  `Code` describes the items which the compiler emits; `SccStmRun` proves that the model of the
compiler emits such items and `SccStmExec` that they do what the statement means.
-/
namespace SccStm
open Scc SccCode SccGen SccLayout I86
open I86.Cpu hiding lo hi rd

/-! ## Specification -/

/-- The kinds of assignments: `x = e`, `x o= e`, and `x++`, `x--` (`post`), `++x`, `--x`. -/
inductive As
  | set
  | op (o : BOp)
  | inc (dec post : Bool)

/-- The value that is assigned to `x`. -/
def As.rhs : As → Nat → E → E
  | .set, _, e => e
  | .op o, x, e => .bin o (.var x) e
  | .inc d _, x, _ => .bin (if d then .sub else .add) (.var x) (.lit 1)

/-- Conditions: expressions, combined by `||` (`or`) and `&&`. -/
inductive Cd
  | one (e : E)
  | con (or : Bool) (a b : Cd)

/-- Statements.  Blocks and `;` are `seq` and `nil`; `if` without `else` has `nil` as its second branch; `while` is `loop` with `nil` as its
third part; `for (x = e; c; k) s` is `seq (asgn set x e) (loop c k s)`; `call x f es` is `x = f(es)`. -/
inductive St
  | nil
  | seq (a b : St)
  | asgn (k : As) (x : Nat) (e : E)
  | ife (e : Cd) (a b : St)
  | loop (c : Option Cd) (k a : St)
  | dow (a : St) (e : Cd)
  | ret (e : Option E)
  | brk
  | cont
  | call (x f : Nat) (es : List E)

/-- How a statement ends, and the values of the variables then. -/
inductive Out
  | norm (ρ : Nat → Word)
  | brk (ρ : Nat → Word)
  | cont (ρ : Nat → Word)
  | ret (v : Option Word) (ρ : Nat → Word)

def upd (ρ : Nat → Word) (x : Nat) (v : Word) : Nat → Word := fun y => if y = x then v else ρ y

/-- The body of a loop ended and the loop goes on. -/
def Out.again : Out → Option (Nat → Word)
  | .norm ρ | .cont ρ => some ρ
  | _ => none

/-- The body of a loop ended and so does the loop. -/
def Out.leave : Out → Option Out
  | .brk ρ => some (.norm ρ)
  | .ret v ρ => some (.ret v ρ)
  | _ => none

/-- The values of the variables if the statement ended by reaching its end. -/
def Out.end? : Out → Option (Nat → Word)
  | .norm ρ => some ρ
  | _ => none

/-- The condition has a truth value; `P` is required of the evaluation of its expressions.  The second operand of `||` is evaluated only if the
first one is false, that of `&&` only if the first one is true. -/
def Truth (P : (Nat → Word) → E → Prop) (ρ : Nat → Word) : Cd → Bool → Prop
  | .one e, b => ∃ v, ev ρ e = some v ∧ P ρ e ∧ b = (v != 0)
  | .con or c d, b => Truth P ρ c or ∧ b = or ∨ Truth P ρ c (!or) ∧ Truth P ρ d b

/-- A condition that is left out is true. -/
def Holds (P : (Nat → Word) → E → Prop) (ρ : Nat → Word) : Option Cd → Bool → Prop
  | none, b => b = true
  | some c, b => Truth P ρ c b

/-- The meaning of statements.  `P` is required of each evaluation of an expression, `C` of each evaluation of a condition.  `Γ` are the
parameters and the bodies of the functions; at most `d` calls are active at the same time. -/
inductive Exec (Γ : Nat → Option (List Nat × St)) (P C : (Nat → Word) → E → Prop) : Nat → St → (Nat → Word) → Out → Prop
  | nil {d} (ρ) : Exec Γ P C d .nil ρ (.norm ρ)
  | seq {d a b ρ ρ1 o} (ha : Exec Γ P C d a ρ (.norm ρ1)) (hb : Exec Γ P C d b ρ1 o) : Exec Γ P C d (.seq a b) ρ o
  | stop {d a b ρ o} (ha : Exec Γ P C d a ρ o) (ho : o.end? = none) : Exec Γ P C d (.seq a b) ρ o
  | asgn {d k x e ρ v} (hv : ev ρ (k.rhs x e) = some v) (hp : P ρ (k.rhs x e)) : Exec Γ P C d (.asgn k x e) ρ (.norm (upd ρ x v))
  | ifT {d e a b ρ o} (hc : Holds C ρ (some e) true) (ha : Exec Γ P C d a ρ o) : Exec Γ P C d (.ife e a b) ρ o
  | ifF {d e a b ρ o} (hc : Holds C ρ (some e) false) (hb : Exec Γ P C d b ρ o) : Exec Γ P C d (.ife e a b) ρ o
  | done {d c k a ρ} (hc : Holds C ρ c false) : Exec Γ P C d (.loop c k a) ρ (.norm ρ)
  | leave {d c k a ρ o o'} (hc : Holds C ρ c true) (ha : Exec Γ P C d a ρ o) (hl : o.leave = some o') : Exec Γ P C d (.loop c k a) ρ o'
  | again {d c k a ρ o ρ1 ρ2 o'} (hc : Holds C ρ c true) (ha : Exec Γ P C d a ρ o) (hl : o.again = some ρ1) (hk : Exec Γ P C d k ρ1 (.norm ρ2))
      (hr : Exec Γ P C d (.loop c k a) ρ2 o') : Exec Γ P C d (.loop c k a) ρ o'
  | doDone {d a e ρ o ρ1} (ha : Exec Γ P C d a ρ o) (hl : o.again = some ρ1) (hc : Holds C ρ1 (some e) false) : Exec Γ P C d (.dow a e) ρ (.norm ρ1)
  | doLeave {d a e ρ o o'} (ha : Exec Γ P C d a ρ o) (hl : o.leave = some o') : Exec Γ P C d (.dow a e) ρ o'
  | doAgain {d a e ρ o ρ1 o'} (ha : Exec Γ P C d a ρ o) (hl : o.again = some ρ1) (hc : Holds C ρ1 (some e) true) (hr : Exec Γ P C d (.dow a e) ρ1 o') :
      Exec Γ P C d (.dow a e) ρ o'
  | ret {d e ρ v} (hv : ev ρ e = some v) (hp : P ρ e) : Exec Γ P C d (.ret (some e)) ρ (.ret (some v) ρ)
  | ret0 {d} (ρ) : Exec Γ P C d (.ret none) ρ (.ret none ρ)
  | brk {d} (ρ) : Exec Γ P C d .brk ρ (.brk ρ)
  | cont {d} (ρ) : Exec Γ P C d .cont ρ (.cont ρ)
  | call {d x f es ps b ρ ρ' w ρ1} (hf : Γ f = some (ps, b)) (ha : es.map (ev ρ) = ps.map fun y => some (ρ' y)) (hp : ∀ e ∈ es, P ρ e)
      (hb : Exec Γ P C d b ρ' (.ret (some w) ρ1)) : Exec Γ P C (d + 1) (.call x f es) ρ (.norm (upd ρ x w))

/-- The statement ends with a jump: what follows it cannot be reached. -/
def dies : St → Bool
  | .brk | .cont | .ret _ => true
  | .seq a b => dies a || dies b
  | _ => false

/-- There is nothing in the statement. -/
def void : St → Bool
  | .nil => true
  | .seq a b => void a && void b
  | _ => false

/-- The value of a constant condition. -/
def cstC : Cd → Option Int
  | .one e => cst e
  | .con .. => none

/-- There is an expression in the statement that is not constant, or an assignment. -/
def hasCode : St → Bool
  | .nil | .brk | .cont | .ret none => false
  | .seq a b => hasCode a || hasCode b
  | .asgn .. | .call .. | .ret (some _) => true
  | .ife e a b => (cstC e).isNone || hasCode a || hasCode b
  | .loop c k a => (match c with | some e => (cstC e).isNone | none => false) || hasCode k || hasCode a
  | .dow a e => hasCode a || (cstC e).isNone

/-- An expression that is compiled: its variables are among `xs`, it needs at most `m` words of stack. -/
def OkE (xs : List Nat) (m : Nat) (e : E) : Prop := Stat e ∧ (∀ x ∈ Vars e, x ∈ xs) ∧ nest e ≤ m

/-- A condition that is compiled: constants are not combined. -/
def OkC (xs : List Nat) (m : Nat) : Cd → Prop
  | .one e => OkE xs m e
  | .con _ a b => OkC xs m a ∧ OkC xs m b ∧ cstC a = none ∧ cstC b = none

/-- No comparison is combined with an assignment; the value of a test is combined only by `+=`, `-=`, `&=`, `^=` and `|=`. -/
def As.Ok (e : E) : As → Prop
  | .op o => o.cc false = 0 ∧ (o = .mul ∨ o = .div ∨ o = .mod ∨ o = .shl ∨ o = .shr → cst e = none → isTest e = false)
  | _ => True

/-- Statements that are compiled: constant conditions of `if`, `while` and `for` are true, those of `do` false; the branch of an `if` without
`else` contains code; nothing follows a jump; calls have at most four arguments and are calls of functions in `F`. -/
def Ok (F xs : List Nat) (m : Nat) : St → Prop
  | .nil | .brk | .cont | .ret none => True
  | .ret (some e) => OkE xs m e
  | .seq a b => Ok F xs m a ∧ Ok F xs m b ∧ (dies a = true → void b = true)
  | .asgn k x e => x ∈ xs ∧ OkE xs m e ∧ k.Ok e
  | .ife e a b => OkC xs m e ∧ cstC e ≠ some 0 ∧ Ok F xs m a ∧ Ok F xs m b ∧ (void b = true → (hasCode a || dies a) = true)
  | .loop c k a => (∀ e, c = some e → OkC xs m e ∧ cstC e ≠ some 0) ∧ Ok F xs m k ∧ (k = .nil ∨ ∃ o x e, k = .asgn o x e) ∧ Ok F xs m a
  | .dow a e => Ok F xs m a ∧ OkC xs m e ∧ (cstC e = none ∨ cstC e = some 0)
  | .call x f es => x ∈ xs ∧ f ∈ F ∧ f ∉ xs ∧ es.length ≤ 4 ∧ ∀ e ∈ es, OkE xs m e

/-! ## The code -/

variable (off : Nat → Int)

/-- The code for `x = e`. -/
def setB (x : Nat) (e : E) : List Byte :=
  match (gen off e false false).kd with
  | .lit v => (gen off e false false).bs ++ modB 0xC7 0 (off x) ++ [Scc.lo v, Scc.hi v]
  | _ => (toVal off false (gen off e false false)).bs ++ modB 0x89 0 (off x)

/-- The code for `x o= e`, where `i` is the opcode of the operator. -/
def aluB (i x : Nat) (e : E) : List Byte :=
  match (gen off e false false).kd with
  | .lit v => (gen off e false false).bs ++ modB 0x81 (i / 8) (off x) ++ [Scc.lo v, Scc.hi v]
  | _ => (toVal off false (gen off e false false)).bs ++ modB i 0 (off x)

/-- The code for `x o= e`, for an operator that needs AX. -/
def othB (o : BOp) (x : Nat) (e : E) : List Byte :=
  match (gen off e false false).kd with
  | .lit v => (gen off e false false).bs ++ modB 0x8B 0 (off x) ++ constBytes false o v ++ modB 0x89 0 (off x)
  | _ => (toReg off false (gen off e false false)).bs ++ [0x91] ++ modB 0x8B 0 (off x) ++ binBytes false o 1 ++ modB 0x89 0 (off x)

/-- The code for an assignment. -/
def asgnB (k : As) (x : Nat) (e : E) : List Byte :=
  match k with
  | .set => setB off x e
  | .op o => match o.alu false with | some (i, _) => aluB off i x e | none => othB off o x e
  | .inc d post => (if post then modB 0x8B 0 (off x) else []) ++ modB 0xFF (if d then 1 else 0) (off x)

/-- The number of labels in the code for a condition. -/
def labs : Cd → Nat
  | .one _ => 0
  | .con _ a b => labs a + 1 + labs b

/-- The condition for a jump after the code for a condition, if it is true. -/
def cdCC : Cd → Nat
  | .one e => testCC off (gen off e false false)
  | .con _ a b => if cdCC a = cdCC b then cdCC a else 5

/-- The end of the code for `||` and `&&`: if the flags for the operands differ, the value is loaded and tested. -/
def conI (or : Bool) (a b l : Nat) : List Item :=
  if a = b then [.lab l]
  else [.raw [0xB0, if or then 0 else 1, nb (0x70 ||| (b ^^^ if or then 1 else 0)), 2], .lab l, .raw [0xB0, if or then 1 else 0, 0x98, 0x21, 0xC0]]

/-- The code for a condition; its labels are those from `n`. -/
def cdI : Cd → Nat → List Item
  | .one e, _ => [.raw (testB off (gen off e false false))]
  | .con or a b, n => cdI a n ++ [.jcc (cdCC off a ^^^ if or then 0 else 1) (n + labs a)] ++ cdI b (n + labs a + 1) ++ conI or (cdCC off a) (cdCC off b) (n + labs a)

/-- A jump to `l` if the condition is false (`neg`) or true. -/
def tst (neg : Bool) (c : Cd) (l n : Nat) : List Item :=
  match cstC c with
  | none => cdI off c n ++ [.jcc (cdCC off c ^^^ if neg then 1 else 0) l]
  | some _ => []

def tstO (c : Option Cd) (l n : Nat) : List Item :=
  match c with
  | none => []
  | some c => tst off true c l n

def labsO : Option Cd → Nat
  | none => 0
  | some c => labs c

/-- A jump unless the code before cannot get here. -/
def jmpU (d : Bool) (l : Nat) : List Item := if d then [] else [.jmp l]

/-- Leaving the function: `lo` if there is a frame of local variables. -/
def fin (lo : Bool) (R : Nat) : List Item := if lo then [.jmp R] else [.raw [0x5D, 0xC3]]

/-- `SUB SP, 8` or `ADD SP, 8`. -/
def spB (d : Int) : List Byte := [0x83, if d < 0 then 0xEC else 0xC4, 8]

/-- The code that puts the value of an argument at BP + d. -/
def argB (d : Int) (e : E) : List Byte :=
  match (gen off e false false).kd with
  | .lit v => (gen off e false false).bs ++ modB 0xC7 0 d ++ [Scc.lo v, Scc.hi v]
  | _ => (toVal off false (gen off e false false)).bs ++ modB 0x89 0 d

/-- All arguments, the first at BP + d. -/
def argsB (d : Int) : List E → List Byte
  | [] => []
  | e :: es => argB off d e ++ argsB (d + 2) es

/-- The room on the stack and the arguments. -/
def preB (l : Int) : List E → List Byte
  | [] => []
  | e :: es => spB (-8) ++ argsB off (l - 8) (e :: es)

/-- The call of the function at `a`, from the address `p`. -/
def callB (l : Int) (a p : Nat) (es : List E) : List Byte :=
  preB off l es ++ [0xE8, Scc.lo ((a : Int) - (p + (preB off l es).length + 1 : Nat) - 2), Scc.hi ((a : Int) - (p + (preB off l es).length + 1 : Nat) - 2)]

/-- Removing the arguments. -/
def popB : List E → List Byte
  | [] => []
  | _ :: _ => spB 8

/-- The code for `x = f(es)` at the address `p`. -/
def callAsgnB (l : Int) (a p x : Nat) (es : List E) : List Byte := callB off l a p es ++ popB es ++ modB 0x89 0 (off x)

/-- The items for a statement, in their order.  `R` is the label at the end of the function, `b` and `k` are the labels for `break` and
`continue`; new labels are those from `l` to `l'`; `lo` is the offset of the top of the stack from BP, `A` the addresses of the functions. -/
inductive Code (A : Nat → Nat) (lo : Int) (R : Nat) : (b k : Int) → (l l' : Nat) → St → List Item → Prop
  | nil {b k l} : Code A lo R b k l l .nil []
  | seq {b k l l1 l2 s t xs ys} (h1 : Code A lo R b k l l1 s xs) (h2 : Code A lo R b k l1 l2 t ys) : Code A lo R b k l l2 (.seq s t) (xs ++ ys)
  | asgn {b k l o x e} : Code A lo R b k l l (.asgn o x e) [.raw (asgnB off o x e)]
  | ifs {b k l l1 e s ys} (h : Code A lo R b k (l + 1 + labs e) l1 s ys) : Code A lo R b k l l1 (.ife e s .nil) (tst off true e l (l + 1) ++ ys ++ [.lab l])
  | ife {b k l l1 l2 e s t xs ys} (h1 : Code A lo R b k (l + 1 + labs e) l1 s xs) (h2 : Code A lo R b k (l1 + 1) l2 t ys) :
      Code A lo R b k l l2 (.ife e s t) (tst off true e l (l + 1) ++ xs ++ jmpU (dies s) l1 ++ [.lab l] ++ ys ++ [.lab l1])
  | whl {b k l l1 e s ys} (h : Code A lo R (l + 1 : Nat) (l : Nat) (l + 2 + labs e) l1 s ys) :
      Code A lo R b k l l1 (.loop (some e) .nil s) ([.lab l] ++ tst off true e (l + 1) (l + 2) ++ ys ++ jmpU (dies s) l ++ [.lab (l + 1)])
  | for0 {b k l l1 c s ys} (h : Code A lo R (l + 2 : Nat) (l : Nat) (l + 3 + labsO c) l1 s ys) :
      Code A lo R b k l l1 (.loop c .nil s) ([.lab l] ++ tstO off c (l + 2) (l + 3) ++ [.lab (l + 1)] ++ ys ++ jmpU (dies s) l ++ [.lab (l + 2)])
  | forK {b k l i l1 c t s xs ys} (hi : i = l + 3 + labsO c) (h1 : Code A lo R b k (i + 1) (i + 1) t xs) (h : Code A lo R (l + 2 : Nat) (i : Nat) (i + 1) l1 s ys) :
      Code A lo R b k l l1 (.loop c t s) ([.lab l] ++ tstO off c (l + 2) (l + 3) ++ [.jmp (l + 1), .lab i] ++ xs ++ [.jmp l, .lab (l + 1)] ++ ys ++
        jmpU (dies s) i ++ [.lab (l + 2)])
  | dow {b k l l1 s e ys} (h : Code A lo R (l + 2 : Nat) (l + 1 : Nat) (l + 3) l1 s ys) :
      Code A lo R b k l (l1 + labs e) (.dow s e) ([.lab l] ++ ys ++ [.lab (l + 1)] ++ tst off false e l l1 ++ [.lab (l + 2)])
  | ret {b k l l1 e} (h : l ≤ l1) : Code A lo R b k l l1 (.ret (some e)) ([.raw (valB off (gen off e false false))] ++ fin (decide (lo ≠ 0)) R)
  | ret0 {b k l l1} (h : l ≤ l1) : Code A lo R b k l l1 (.ret none) (fin (decide (lo ≠ 0)) R)
  | brk {b k : Int} {l} (j : Nat) (h : b = j) : Code A lo R b k l l .brk [.jmp j]
  | cont {b k : Int} {l} (j : Nat) (h : k = j) : Code A lo R b k l l .cont [.jmp j]
  | call {b k l p x f es} : Code A lo R b k l l (.call x f es) [.pos p (callAsgnB off lo (A f) p x es)]

/-- Only the addresses of the functions that are called matter. -/
theorem Code.congr {off : Nat → Int} {A A' : Nat → Nat} {lo : Int} {R : Nat} {b k : Int} {l l' : Nat} {t : St} {ys : List Item} {F xs : List Nat} {m : Nat} (h : Code off A lo R b k l l' t ys) (hok : Ok F xs m t)
    (hA : ∀ f ∈ F, A' f = A f) : Code off A' lo R b k l l' t ys := by
  induction h with
  | nil => exact .nil
  | seq _ _ i1 i2 => exact .seq (i1 hok.1) (i2 hok.2.1)
  | asgn => exact .asgn
  | ifs _ i1 => exact .ifs (i1 hok.2.2.1)
  | ife _ _ i1 i2 => exact .ife (i1 hok.2.2.1) (i2 hok.2.2.2.1)
  | whl _ i1 => exact .whl (i1 hok.2.2.2)
  | for0 _ i1 => exact .for0 (i1 hok.2.2.2)
  | forK hi _ _ i1 i2 => exact .forK hi (i1 hok.2.1) (i2 hok.2.2.2)
  | dow _ i1 => exact .dow (i1 hok.1)
  | ret h => exact .ret h
  | ret0 h => exact .ret0 h
  | brk j h => exact .brk j h
  | cont j h => exact .cont j h
  | call => rw [← hA _ hok.2.1]; exact .call

/-- The functions that can be called: their addresses, their names. -/
structure Fns where
  A : Nat → Nat
  F : List Nat

end SccStm
