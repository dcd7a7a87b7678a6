import Verif.Props.ScppRun
/-!
# `#if` expressions

Lemmas for `C26` and `C27`.
-/
namespace Props.ScppExpr
open Scpp Prog Text Props.ScppLex Props.ScppMacro Props.ScppDefine Props.ScppTable Props.ScppUndef Props.ScppRun

/-! ## Specification: expressions -/

/-- What an expression consists of after macro replacement: tokens and `defined` with its operand. -/
inductive El
  | tok (t : PTok)
  | dfn (w : List Byte)
  deriving DecidableEq

/-- Drop leading white space. -/
def dropWs : List El → List El
  | .tok (.ws _) :: es => dropWs es
  | es => es

/-- Expressions. -/
inductive Ex
  | num (w : List Byte)
  | name (w : List Byte)
  | dfn (w : List Byte)
  | not (e : Ex)
  | par (e : Ex)
  | bin (op : List Byte) (l r : Ex)
  | cond (c a b : Ex)

/-- The elements `es` begin with the expression `e` and go on with `es'`. -/
def Str : Ex → List El → List El → Prop
  | .num w, es, es' => dropWs es = .tok (.num w) :: es'
  | .name w, es, es' => dropWs es = .tok (.id w) :: es'
  | .dfn w, es, es' => dropWs es = .dfn w :: es'
  | .not e, es, es' => ∃ m, dropWs es = .tok (.op (asc "!")) :: m ∧ Str e m es'
  | .par e, es, es' => ∃ m m', dropWs es = .tok (.op (asc "(")) :: m ∧ Str e m m' ∧ dropWs m' = .tok (.op (asc ")")) :: es'
  | .bin op l r, es, es' => ∃ m m', Str l es m ∧ dropWs m = .tok (.op op) :: m' ∧ Str r m' es'
  | .cond c a b, es, es' => ∃ m1 m2 m3 m4, Str c es m1 ∧ dropWs m1 = .tok (.op (asc "?")) :: m2 ∧ Str a m2 m3 ∧ dropWs m3 = .tok (.op (asc ":")) :: m4 ∧ Str b m4 es'

/-- The binary operators and their levels, the strongest first. -/
def levels : List (List Byte × Nat) :=
  [(asc "*", 3), (asc "/", 3), (asc "%", 3), (asc "+", 4), (asc "-", 4), (asc "<", 6), (asc ">", 6), (asc "<=", 6), (asc ">=", 6), (asc "==", 7), (asc "!=", 7),
   (asc "&", 8), (asc "^", 9), (asc "|", 10), (asc "&&", 11), (asc "||", 12)]

/-- The level of an operator. -/
def level (op : List Byte) : Nat := ((levels.find? fun e => e.1 == op).map (·.2)).getD 0

/-- The level of an expression. -/
def Ex.lvl : Ex → Nat
  | .bin op _ _ => level op
  | .cond .. => 13
  | _ => 0

/-- A value of `int`. -/
def rng (n : Int) : Option Int := if -2147483648 ≤ n ∧ n ≤ 2147483647 then some n else none

/-- A truth value. -/
def truth (b : Prop) [Decidable b] : Int := if b then 1 else 0

/-- An operation on the bits. -/
def onBits (f : BitVec 32 → BitVec 32 → BitVec 32) (a b : Int) : Int := (f (BitVec.ofInt 32 a) (BitVec.ofInt 32 b)).toInt

/-- The value of an operation on `int`s in C; `none` where C leaves it undefined. -/
def opVal (op : List Byte) (a b : Int) : Option Int :=
  if op = asc "*" then rng (a * b)
  else if op = asc "/" then if b = 0 then none else rng (a.tdiv b)
  else if op = asc "%" then if b = 0 then none else (rng (a.tdiv b)).map fun _ => a.tmod b
  else if op = asc "+" then rng (a + b)
  else if op = asc "-" then rng (a - b)
  else if op = asc "<" then some (truth (a < b))
  else if op = asc ">" then some (truth (a > b))
  else if op = asc "<=" then some (truth (a ≤ b))
  else if op = asc ">=" then some (truth (a ≥ b))
  else if op = asc "==" then some (truth (a = b))
  else if op = asc "!=" then some (truth (a ≠ b))
  else if op = asc "&" then some (onBits (· &&& ·) a b)
  else if op = asc "^" then some (onBits (· ^^^ ·) a b)
  else if op = asc "|" then some (onBits (· ||| ·) a b)
  else if op = asc "&&" then some (truth (a ≠ 0 ∧ b ≠ 0))
  else if op = asc "||" then some (truth (a ≠ 0 ∨ b ≠ 0))
  else none

/-- The value of a digit. -/
def digitVal (c : Byte) : Option Nat :=
  if 0x30 ≤ c.toNat ∧ c.toNat ≤ 0x39 then some (c.toNat - 0x30)
  else if 0x41 ≤ c.toNat ∧ c.toNat ≤ 0x46 then some (c.toNat - 0x41 + 10)
  else if 0x61 ≤ c.toNat ∧ c.toNat ≤ 0x66 then some (c.toNat - 0x61 + 10)
  else none

/-- The value of digits to a base. -/
def digitsVal (base : Nat) : List Byte → Nat → Option Nat
  | [], n => some n
  | c :: cs, n => match digitVal c with
    | none => none
    | some d => if d < base then digitsVal base cs (n * base + d) else none

/-- The value of an integer constant without suffix. -/
def numVal : List Byte → Option Nat
  | 0x30#8 :: 0x78#8 :: c :: r => digitsVal 16 (c :: r) 0
  | 0x30#8 :: 0x58#8 :: c :: r => digitsVal 16 (c :: r) 0
  | 0x30#8 :: r => digitsVal 8 r 0
  | w => digitsVal 10 w 0

/-- Is the name defined? -/
def isDef (Δ : Table) (w : List Byte) : Prop := w ∈ special ∨ (lookup Δ w).isSome

instance (Δ : Table) (w : List Byte) : Decidable (isDef Δ w) := by unfold isDef; infer_instance

/-- The value of an expression in C when all its parts have values. -/
def val (Δ : Table) : Ex → Option Int
  | .num w => (numVal w).bind fun n => rng n
  | .name _ => some 0
  | .dfn w => some (truth (isDef Δ w))
  | .not e => (val Δ e).map fun v => truth (v = 0)
  | .par e => val Δ e
  | .bin op l r => (val Δ l).bind fun a => (val Δ r).bind fun b => opVal op a b
  | .cond c a b => (val Δ c).bind fun x => (val Δ a).bind fun y => (val Δ b).bind fun z => some (if x ≠ 0 then y else z)

/-- The operator at the top. -/
def Ex.top : Ex → Option (List Byte)
  | .bin op _ _ => some op
  | _ => none

/-- The operators for which the grouping of a chain does not matter. -/
def assocOps : List (List Byte) := [asc "&", asc "^", asc "|", asc "&&", asc "||"]

/-- Expressions grouped to the right. -/
def OkR (Δ : Table) : Ex → Prop
  | .num _ => True
  | .name w => lookup Δ w = none ∧ w ∉ builtins
  | .dfn _ => True
  | .not e => e.lvl = 0 ∧ OkR Δ e
  | .par e => OkR Δ e
  | .bin op l r => op ∈ levels.map (·.1) ∧ op ≠ asc ">" ∧ l.lvl < level op ∧ (r.lvl < level op ∨ r.top = some op) ∧ OkR Δ l ∧ OkR Δ r
  | .cond c a b => c.lvl < 13 ∧ OkR Δ c ∧ OkR Δ a ∧ OkR Δ b

/-! ## Numbers -/

theorem ck_eq {n : Int} {s : S} (h : -2147483648 ≤ n ∧ n ≤ 2147483647) : ck n s = .ok n s := run_ub (by simpa using h) rfl

theorem digitsVal_ge {base : Nat} (hb : 1 ≤ base) : ∀ (cs : List Byte) (n v : Nat), digitsVal base cs n = some v → n ≤ v
  | [], n, v, h => by cases h; exact Nat.le_refl _
  | c :: cs, n, v, h => by
    simp only [digitsVal] at h
    split at h
    · cases h
    · split at h
      · have := digitsVal_ge hb cs _ v h
        have : n * 1 ≤ n * base := Nat.mul_le_mul_left n hb
        omega
      · cases h

theorem digit_code {c : Byte} {d : Nat} (h : digitVal c = some d) :
    (if 0x30 ≤ c.toNat ∧ c.toNat ≤ 0x39 then (c.toNat : Int) - 0x30 else ((c &&& 0xDF).toNat : Int) - 55) = d := by
  have table : ∀ c : Byte, ∀ d, digitVal c = some d → (if 0x30 ≤ c.toNat ∧ c.toNat ≤ 0x39 then (c.toNat : Int) - 0x30 else ((c &&& 0xDF).toNat : Int) - 55) = d := by
    have : ∀ i : Fin 256, (digitVal (BitVec.ofNat 8 i)).all (fun (d : Nat) => decide ((if 0x30 ≤ (BitVec.ofNat 8 i).toNat ∧ (BitVec.ofNat 8 i).toNat ≤ 0x39 then ((BitVec.ofNat 8 i).toNat : Int) - 0x30
          else (((BitVec.ofNat 8 i) &&& 0xDF).toNat : Int) - 55) = (d : Int))) = true := by decide +kernel
    intro c d hd
    have := this ⟨c.toNat, c.isLt⟩
    simp only [BitVec.ofNat_toNat, BitVec.setWidth_eq, hd, Option.all_some, decide_eq_true_eq] at this
    exact this
  exact table c d h

theorem digits_eq {base : Nat} (hb : 1 ≤ base) {s : S} : ∀ (cs : List Byte) (n v : Nat), digitsVal base cs n = some v → v ≤ 2147483647 → digits (base : Int) cs (n : Int) s = .ok (v : Int) s
  | [], n, v, h, _ => by cases h; rfl
  | c :: cs, n, v, h, hv => by
    simp only [digitsVal] at h
    split at h
    · cases h
    · rename_i d hd
      split at h
      · have hge := digitsVal_ge hb cs _ v h
        have h1 : (n : Int) * (base : Int) = ((n * base : Nat) : Int) := by simp
        refine run_bind (ck_eq (n := (n : Int) * base) (by rw [h1]; omega)) ?_
        refine run_bind (a := ((n * base + d : Nat) : Int)) (s1 := s) ?_ (digits_eq hb cs _ v h hv)
        rw [digit_code hd, h1]
        have : ((n * base : Nat) : Int) + (d : Int) = ((n * base + d : Nat) : Int) := by simp
        rw [this]
        exact ck_eq (by omega)
      · cases h

theorem number_eq {w : List Byte} {v : Nat} {s : S} (h : numVal w = some v) (hv : v ≤ 2147483647) : number w s = .ok (v : Int) s := by
  unfold numVal at h
  split at h
  · exact digits_eq (base := 16) (by decide) _ 0 v h hv
  · exact digits_eq (base := 16) (by decide) _ 0 v h hv
  · rename_i r h1 h2
    have hr : digits 8 r 0 s = .ok (v : Int) s := digits_eq (base := 8) (by decide) _ 0 v h hv
    match r, h1, h2, h, hr with
    | [], _, _, _, hr => exact hr
    | c :: r, _, _, h, hr =>
      have n1 : c ≠ 0x78#8 := by rintro rfl; cases h
      have n2 : c ≠ 0x58#8 := by rintro rfl; cases h
      have e : number (0x30#8 :: c :: r) = digits 8 (c :: r) 0 := by
        unfold number
        split <;> simp_all
      rw [e]
      exact hr
  · rename_i h1 h2 h3
    unfold number
    split
    · exact absurd rfl (h3 _)
    · exact absurd rfl (h3 _)
    · exact absurd rfl (h3 _)
    · exact digits_eq (base := 10) (by decide) _ 0 v h hv

/-! ## Operators -/

theorem level_facts : ∀ e ∈ levels, prec (PTok.op e.1).ty = e.2 ∧ (PTok.op e.1).ty ≠ 0x3F ∧ 0x20 < (PTok.op e.1).ty ∧ (PTok.op e.1).ty < tokId ∧ (PTok.op e.1).ty ≠ tokRawId ∧
    level e.1 = e.2 ∧ 3 ≤ e.2 ∧ e.2 ≤ 12 := by decide +kernel

theorem level_fact {op : List Byte} (h : op ∈ levels.map (·.1)) : prec (PTok.op op).ty = level op ∧ (PTok.op op).ty ≠ 0x3F ∧ 0x20 < (PTok.op op).ty ∧ (PTok.op op).ty < tokId ∧
    (PTok.op op).ty ≠ tokRawId ∧ 3 ≤ level op ∧ level op ≤ 12 := by
  obtain ⟨e, he, rfl⟩ := List.mem_map.mp h
  obtain ⟨h1, h2, h3, h4, h5, h6, h7, h8⟩ := level_facts e he
  rw [h6]
  exact ⟨h1, h2, h3, h4, h5, h7, h8⟩

theorem prec_cases (n : Nat) : prec n ≤ 13 ∨ prec n = 100 := by
  unfold prec
  repeat' split
  all_goals first | (left; decide) | (right; rfl)

theorem rng_some {n v : Int} (h : rng n = some v) : (-2147483648 ≤ n ∧ n ≤ 2147483647) ∧ v = n := by
  unfold rng at h
  split at h
  · cases h; exact ⟨by assumption, rfl⟩
  · cases h

theorem ofBool_truth {b : Bool} {p : Prop} [Decidable p] (h : b = true ↔ p) : ofBool b = truth p := by
  unfold ofBool truth
  by_cases hp : p
  · rw [if_pos hp, if_pos (h.mpr hp)]
  · rw [if_neg hp, if_neg (fun hb => hp (h.mp hb))]

theorem calcOp_eq {op : List Byte} {a b v : Int} {s : S} (hop : op ∈ levels.map (·.1)) (hgt : op ≠ asc ">") (h : opVal op a b = some v) :
    calcOp (PTok.op op).ty a b s = .ok v s := by
  have hop' := hop
  simp only [levels, List.map_cons, List.map_nil, List.mem_cons, List.not_mem_nil, or_false] at hop'
  have t (w : List Byte) (n : Nat) (e : (PTok.op w).ty = n) : (PTok.op w).ty = n := e
  rcases hop' with rfl | rfl | rfl | rfl | rfl | rfl | rfl | rfl | rfl | rfl | rfl | rfl | rfl | rfl | rfl | rfl
  · obtain ⟨h1, rfl⟩ := rng_some (show rng (a * b) = some v from h)
    exact ck_eq h1
  · have h : (if b = 0 then none else rng (a.tdiv b)) = some v := h
    split at h
    · cases h
    · rename_i hb
      obtain ⟨h1, rfl⟩ := rng_some h
      exact run_ub (by simpa using hb) (ck_eq h1)
  · have h : (if b = 0 then none else (rng (a.tdiv b)).map fun _ => a.tmod b) = some v := h
    split at h
    · cases h
    · rename_i hb
      obtain ⟨x, hx, rfl⟩ := Option.map_eq_some_iff.mp h
      obtain ⟨h1, rfl⟩ := rng_some hx
      exact run_ub (by simpa using hb) (run_bind (ck_eq h1) rfl)
  · obtain ⟨h1, rfl⟩ := rng_some (show rng (a + b) = some v from h)
    exact ck_eq h1
  · obtain ⟨h1, rfl⟩ := rng_some (show rng (a - b) = some v from h)
    exact ck_eq h1
  · cases (show some (truth (a < b)) = some v from h)
    exact congrArg (fun x => Res.ok x s) (ofBool_truth (by simp))
  · exact absurd rfl hgt
  · cases (show some (truth (a ≤ b)) = some v from h)
    exact congrArg (fun x => Res.ok x s) (ofBool_truth (by simp))
  · cases (show some (truth (a ≥ b)) = some v from h)
    exact congrArg (fun x => Res.ok x s) (ofBool_truth (by simp))
  · cases (show some (truth (a = b)) = some v from h)
    exact congrArg (fun x => Res.ok x s) (ofBool_truth (by simp))
  · cases (show some (truth (a ≠ b)) = some v from h)
    exact congrArg (fun x => Res.ok x s) (ofBool_truth (by simp))
  · cases (show some (onBits (· &&& ·) a b) = some v from h); rfl
  · cases (show some (onBits (· ^^^ ·) a b) = some v from h); rfl
  · cases (show some (onBits (· ||| ·) a b) = some v from h); rfl
  · cases (show some (truth (a ≠ 0 ∧ b ≠ 0)) = some v from h)
    exact congrArg (fun x => Res.ok x s) (ofBool_truth (by simp))
  · cases (show some (truth (a ≠ 0 ∨ b ≠ 0)) = some v from h)
    exact congrArg (fun x => Res.ok x s) (ofBool_truth (by simp))

/-! ## The tokens of an expression -/

/-- With enough fuel. -/
def Runs {α : Type} (f : Nat → A α) (s : S) (a : α) (s' : S) : Prop := ∃ N, ∀ n, N ≤ n → f n s = .ok a s'

theorem Runs.bind {α β : Type} {f : Nat → A α} {g : Nat → α → A β} {s s1 s2 : S} {a : α} {b : β} (h : Runs f s a s1) (h' : Runs (fun n => g n a) s1 b s2) :
    Runs (fun n => f n >>= g n) s b s2 := by
  obtain ⟨N, h⟩ := h
  obtain ⟨N', h'⟩ := h'
  exact ⟨max N N', fun n hn => run_bind (h n (by omega)) (h' n (by omega))⟩

theorem Runs.succ {α : Type} {f : Nat → A α} {s s' : S} {a : α} (h : Runs (fun n => f (n + 1)) s a s') : Runs f s a s' := by
  obtain ⟨N, h⟩ := h
  refine ⟨N + 1, fun n hn => ?_⟩
  obtain ⟨n, rfl⟩ : ∃ k, n = k + 1 := ⟨n - 1, by omega⟩
  exact h n (by omega)

theorem Runs.get {β : Type} {g : Nat → S → A β} {s s2 : S} {b : β} (h : Runs (fun n => g n s) s b s2) : Runs (fun n => getS >>= g n) s b s2 := by
  obtain ⟨N, h⟩ := h
  exact ⟨N, fun n hn => run_getS (h n hn)⟩

theorem Runs.of {α : Type} {f : A α} {s s' : S} {a : α} (h : f s = .ok a s') : Runs (fun _ => f) s a s' := ⟨0, fun _ _ => h⟩

theorem Runs.pos {α : Type} {c : Prop} [Decidable c] {f g : Nat → A α} {s s' : S} {a : α} (hc : c) (h : Runs f s a s') : Runs (fun n => if c then f n else g n) s a s' := by
  obtain ⟨N, h⟩ := h
  exact ⟨N, fun n hn => run_pos hc (h n hn)⟩

theorem Runs.neg {α : Type} {c : Prop} [Decidable c] {f g : Nat → A α} {s s' : S} {a : α} (hc : ¬ c) (h : Runs g s a s') : Runs (fun n => if c then f n else g n) s a s' := by
  obtain ⟨N, h⟩ := h
  exact ⟨N, fun n hn => run_neg hc (h n hn)⟩

/-- `EvalUnary` at `defined`, `scpp.c:1233-1248`. -/
def dfnBranch (n : Nat) : A Int := do
  getToken n
  rawSkipWs n
  let s ← getS
  let par := s.tok.ty == 0x28
  if par then
    rawGetToken
    rawSkipWs n
  replaceId
  let s ← getS
  let v := isDefined s s.tok.ty
  getToken n
  if par then expect n 0x29
  pure (ofBool v)

/-- The preprocessor is at the elements `es` of a line and `Q` holds at its end. -/
def Has (Δ : Table) (Q : S → Prop) : List El → S → Prop
  | [], s => s.tok.ty = tokNl ∧ Q s
  | .tok o :: es, s => o.Ok ∧ o ≠ .nl ∧ Shows Δ s o ∧ ∃ s1, Runs getToken s () s1 ∧ Has Δ Q es s1
  | .dfn w :: es, s => s.tok.ty = tokDefined ∧ ∃ s1, Runs dfnBranch s (truth (isDef Δ w)) s1 ∧ Has Δ Q es s1

/-- The same, with any white space first. -/
def At0 (Δ : Table) (Q : S → Prop) (es : List El) (s : S) : Prop := ∃ es0, Has Δ Q es0 s ∧ dropWs es0 = dropWs es

theorem dropWs_ne (w : List Byte) : ∀ (es r : List El), dropWs es ≠ .tok (.ws w) :: r
  | [], _ => by simp [dropWs]
  | .dfn _ :: _, _ => by simp [dropWs]
  | .tok t :: es, r => by
    cases t with
    | ws v => exact dropWs_ne w es r
    | nl => simp [dropWs]
    | id => simp [dropWs]
    | num => simp [dropWs]
    | op => simp [dropWs]
    | lit => simp [dropWs]

theorem dropWs_idem : ∀ es : List El, dropWs (dropWs es) = dropWs es
  | [] => rfl
  | .dfn _ :: _ => rfl
  | .tok t :: es => by
    cases t with
    | ws v => exact dropWs_idem es
    | nl => rfl
    | id => rfl
    | num => rfl
    | op => rfl
    | lit => rfl

variable {Δ : Table} {Q : S → Prop}

theorem tok_ws {s : S} {o : PTok} (hs : Shows Δ s o) (hok : o.Ok) : s.tok.ty = tokWs ↔ ∃ w, o = .ws w := by
  have hf := ty_facts hok
  by_cases hr : o.ty = tokRawId
  · obtain ⟨w, rfl⟩ := hf.2.2.2.2.2.2.1.mp hr
    constructor
    · intro e
      rcases hs.id w rfl with ⟨h, _⟩ | ⟨k, _, h⟩
      · rw [h] at e; exact absurd e (by decide)
      · rw [h] at e
        have : 257 + k = 1 := e
        omega
    · rintro ⟨w', e⟩; cases e
  · rw [hs.ty hr]
    exact hf.2.2.2.2.1

theorem skip_has : ∀ (es : List El) (s : S), Has Δ Q es s → ∃ s', Runs skipWs s () s' ∧ Has Δ Q (dropWs es) s' ∧ ((∀ w r, es ≠ .tok (.ws w) :: r) → s' = s)
  | [], s, h => ⟨s, .succ (.get (.neg (by rw [h.1]; decide) (.of rfl))), h, fun _ => rfl⟩
  | .dfn w :: es, s, h => ⟨s, .succ (.get (.neg (by rw [h.1]; decide) (.of rfl))), h, fun _ => rfl⟩
  | .tok o :: es, s, h => by
    have h0 := h
    obtain ⟨h1, h2, h3, s1, h4, h5⟩ := h
    by_cases hw : ∃ w, o = .ws w
    · obtain ⟨w, rfl⟩ := hw
      obtain ⟨s2, k1, k2, _⟩ := skip_has es s1 h5
      exact ⟨s2, .succ (.get (.pos ((tok_ws h3 h1).mpr ⟨w, rfl⟩) (.bind h4 k1))), k2, fun e => absurd rfl (e w es)⟩
    · refine ⟨s, .succ (.get (.neg (fun e => hw ((tok_ws h3 h1).mp e)) (.of rfl))), ?_, fun _ => rfl⟩
      cases o with
      | ws v => exact absurd ⟨v, rfl⟩ hw
      | nl => exact h0
      | id => exact h0
      | num => exact h0
      | op => exact h0
      | lit => exact h0

theorem At0.skip {es : List El} {s : S} (h : At0 Δ Q es s) : ∃ s', Runs skipWs s () s' ∧ Has Δ Q (dropWs es) s' := by
  obtain ⟨es0, h1, h2⟩ := h
  obtain ⟨s', k1, k2, _⟩ := skip_has es0 s h1
  exact ⟨s', k1, h2 ▸ k2⟩

theorem Has.noskip {es : List El} {s : S} (h : Has Δ Q (dropWs es) s) : Runs skipWs s () s := by
  obtain ⟨s', k1, _, k2⟩ := skip_has _ s h
  rwa [k2 (fun w r => dropWs_ne w es r)] at k1

theorem Has.at0 {es : List El} {s : S} (h : Has Δ Q es s) : At0 Δ Q es s := ⟨es, h, rfl⟩

theorem Has.at0' {es : List El} {s : S} (h : Has Δ Q (dropWs es) s) : At0 Δ Q es s := ⟨dropWs es, h, dropWs_idem es⟩

/-- What follows does not belong to an expression of level `k`. -/
def Above (k : Nat) (es : List El) : Prop := dropWs es = [] ∨ ∃ o r, dropWs es = .tok (.op o) :: r ∧ k < prec (PTok.op o).ty

theorem Above.mono {k k' : Nat} {es : List El} (h : Above k es) (hk : k' ≤ k) : Above k' es := by
  rcases h with h | ⟨o, r, h, h'⟩
  · exact .inl h
  · exact .inr ⟨o, r, h, by omega⟩

theorem Above.high {es : List El} (h : Above 13 es) : Above 15 es := by
  rcases h with h | ⟨o, r, h, h'⟩
  · exact .inl h
  · have := prec_cases (PTok.op o).ty
    exact .inr ⟨o, r, h, by omega⟩

theorem op_ne_raw {o : List Byte} (h : (PTok.op o).Ok) : (PTok.op o).ty ≠ tokRawId := fun e => by
  obtain ⟨w, hw⟩ := (ty_facts h).2.2.2.2.2.2.1.mp e
  cases hw

/-- The loops of `EvalExpr1` end there. -/
theorem Above.stop {k : Nat} {es : List El} {s : S} (h : Above k es) (h' : Has Δ Q (dropWs es) s) : s.tok.ty ≤ 0x20 ∨ tokId ≤ s.tok.ty ∨ k < prec s.tok.ty := by
  rcases h with h | ⟨o, r, h, hk⟩
  · rw [h] at h'
    left; rw [h'.1]; decide
  · rw [h] at h'
    obtain ⟨h1, _, h3, _⟩ := h'
    right; right
    rw [h3.ty (op_ne_raw h1)]
    exact hk

theorem stop1 {k outer : Nat} {es : List El} {s s' : S} (v : Int) (h : Above k es) (hs : Runs skipWs s () s') (h' : Has Δ Q (dropWs es) s') (ho : outer ≤ k) :
    Runs (fun n => evalExpr1 n v outer) s v s' := by
  refine .succ ?_
  simp only [evalExpr1]
  refine .bind hs (.get ?_)
  rcases h.stop h' with h | h | h
  · exact .pos (.inl h) (.of rfl)
  · exact .pos (.inr h) (.of rfl)
  · by_cases hx : s'.tok.ty ≤ 0x20 ∨ tokId ≤ s'.tok.ty
    · exact .pos hx (.of rfl)
    · exact .neg hx (.pos (by omega) (.of rfl))

theorem stopR {k p : Nat} {es : List El} {s s' : S} (v : Int) (h : Above k es) (hs : Runs skipWs s () s') (h' : Has Δ Q (dropWs es) s') (ho : p ≤ k) :
    Runs (fun n => evalRhs n v p) s v s' := by
  refine .succ ?_
  simp only [evalRhs]
  refine .bind hs (.get ?_)
  rcases h.stop h' with h | h | h
  · exact .pos (.inl h) (.of rfl)
  · exact .pos (.inr h) (.of rfl)
  · by_cases hx : s'.tok.ty ≤ 0x20 ∨ tokId ≤ s'.tok.ty
    · exact .pos hx (.of rfl)
    · exact .neg hx (.pos (by omega) (.of rfl))

/-! ## Evaluation -/

theorem has_op {o : List Byte} {es : List El} {s : S} (h : Has Δ Q (.tok (.op o) :: es) s) : s.tok.ty = (PTok.op o).ty ∧ ∃ s1, Runs getToken s () s1 ∧ Has Δ Q es s1 := by
  obtain ⟨h1, _, h3, h4⟩ := h
  exact ⟨h3.ty (op_ne_raw h1), h4⟩

theorem lvl_le (h : OkR Δ e) : e.lvl ≤ 13 := by
  cases e with
  | bin op l r => exact Nat.le_succ_of_le (level_fact h.1).2.2.2.2.2.2
  | _ => simp [Ex.lvl]

theorem expect_eq {s s' : S} {t : Nat} (h : s.tok.ty = t) (h' : Runs getToken s () s') : Runs (fun n => expect n t) s () s' := by
  obtain ⟨N, h'⟩ := h'
  exact ⟨N, fun n hn => run_getS (run_assert (by simpa using h) (h' n hn))⟩

theorem text_run {s : S} {t : Txt} {l : List Byte} (h : strOf s t = some l) : text t s = .ok l s := by
  unfold text
  refine run_getS ?_
  rw [h]
  rfl

/-- One operator of `EvalExpr1` and its right operand. -/
theorem bin_step {op : List Byte} {vl vr v0 v : Int} {outer : Nat} {m' : List El} {s s2 s1 s' w : S} {x : Int} (hop : op ∈ levels.map (·.1)) (hgt : op ≠ asc ">")
    (hv : opVal op vl vr = some v) (hskip : Runs skipWs s () s2) (hh : Has Δ Q (.tok (.op op) :: m') s2) (hget : ∃ s3, Runs getToken s2 () s3 ∧ Runs evalUnary s3 v0 s1)
    (hr : Runs (fun n => evalRhs n v0 (level op)) s1 vr s') (ho : level op ≤ outer) (h : Runs (fun n => evalExpr1 n v outer) s' x w) :
    Runs (fun n => evalExpr1 n vl outer) s x w := by
  obtain ⟨hty, _⟩ := has_op hh
  obtain ⟨s3, hg, hu⟩ := hget
  obtain ⟨f1, f2, f3, f4, _⟩ := level_fact hop
  refine .succ ?_
  simp only [evalExpr1]
  refine .bind hskip (.get ?_)
  rw [hty]
  refine .neg (by omega) (.neg (by rw [f1]; omega) (.bind hg (.neg f2 (.bind hu (.bind (by rw [f1]; exact hr) (.bind (.of (calcOp_eq hop hgt hv)) h))))))

theorem eval (hnd : (names Δ).Nodup) (e : Ex) : ∀ (es es' : List El) (s : S) (v : Int), OkR Δ e → val Δ e = some v → Str e es es' → At0 Δ Q es s → Above e.lvl es' →
    ∃ v0 s1 s', Runs evalUnary s v0 s1 ∧ At0 Δ Q es' s' ∧ (e.lvl = 0 → v0 = v ∧ s1 = s') ∧
      (∀ outer w s'', e.lvl ≤ outer → Runs (fun n => evalExpr1 n v outer) s' w s'' → Runs (fun n => evalExpr1 n v0 outer) s1 w s'') ∧
      (e.lvl < 13 → ∀ p w s'', e.lvl ≤ p → Runs (fun n => evalRhs n v p) s' w s'' → Runs (fun n => evalRhs n v0 p) s1 w s'') := by
  have unary : ∀ {e : Ex} {es' : List El} {s : S} {v : Int}, (∃ s1, Runs evalUnary s v s1 ∧ Has Δ Q es' s1) →
      ∃ v0 s1 s', Runs evalUnary s v0 s1 ∧ At0 Δ Q es' s' ∧ (e.lvl = 0 → v0 = v ∧ s1 = s') ∧
      (∀ outer w s'', e.lvl ≤ outer → Runs (fun n => evalExpr1 n v outer) s' w s'' → Runs (fun n => evalExpr1 n v0 outer) s1 w s'') ∧
      (e.lvl < 13 → ∀ p w s'', e.lvl ≤ p → Runs (fun n => evalRhs n v p) s' w s'' → Runs (fun n => evalRhs n v0 p) s1 w s'') := by
    rintro e es' s v ⟨s1, h1, h2⟩
    exact ⟨v, s1, s1, h1, h2.at0, fun _ => ⟨rfl, rfl⟩, fun _ _ _ _ h => h, fun _ _ _ _ _ h => h⟩
  induction e with
  | num w =>
    intro es es' s v _ hv hstr hs _
    obtain ⟨s1, k1, k2⟩ := hs.skip
    rw [show dropWs es = _ from hstr] at k2
    obtain ⟨_, _, h3, s2, h4, h5⟩ := k2
    obtain ⟨m, hm, hr⟩ := Option.bind_eq_some_iff.mp (show (numVal w).bind (fun n => rng n) = some v from hv)
    obtain ⟨hr, rfl⟩ := rng_some hr
    have hty : s1.tok.ty = tokNum := h3.ty (by show ¬ tokNum = tokRawId; decide)
    refine unary ⟨s2, .succ ?_, h5⟩
    simp only [evalUnary]
    refine .bind k1 (.get (.pos hty (.bind (.of (a := w) (s' := s1) ?_) (.bind (.of (number_eq hm (by omega))) (.bind h4 (.of rfl))))))
    have := h3.txt (by simp) (by show ¬ tokNum = tokWs; decide)
    exact text_run this
  | name w =>
    intro es es' s v hok hv hstr hs _
    obtain ⟨s1, k1, k2⟩ := hs.skip
    rw [show dropWs es = _ from hstr] at k2
    obtain ⟨_, _, h3, s2, h4, h5⟩ := k2
    cases (show some 0 = some v from hv)
    refine unary ⟨s2, .succ ?_, h5⟩
    simp only [evalUnary]
    refine .bind k1 (.get ?_)
    rcases h3.id w rfl with ⟨hty, _⟩ | ⟨k, hk, hty⟩
    · exact .neg (by rw [hty]; decide) (.pos hty (.bind h4 (.of rfl)))
    · have h16 : 16 ≤ k := by
        rcases Nat.lt_or_ge k 16 with h | h
        · rw [names, List.getElem?_append_left (by rw [builtins_len]; exact h)] at hk
          exact absurd (List.mem_of_getElem? hk) hok.2
        · exact h
      obtain ⟨x, hx⟩ := names_user hk h16
      have hx' : Δ[k - 16]? = some (w, none) := by
        cases x with
        | none => exact hx
        | some b =>
          have := hok.1
          rw [lookup_idx hnd hx] at this
          cases this
      have hh := h3.undef w rfl _ hx'
      have hty : s1.tok.ty = 257 + k := hty
      refine .neg (by rw [hty]; show ¬ 257 + k = 3; omega) (.neg (by rw [hty]; show ¬ 257 + k = 256; omega) (.neg (by rw [hty]; show ¬ 257 + k = 269; omega)
        (.neg (by rw [hty]; omega) (.neg (by rw [hty]; omega) (.bind (.of (run_assert_last ?_)) (.bind h4 (.of rfl)))))))
      rw [hty]
      have e : 257 + k - tokUserId = k - 16 := by show 257 + k - 273 = _; omega
      have e2 : tokUserId ≤ 257 + k := by show 273 ≤ 257 + k; omega
      simp [e, hh, e2]
  | dfn w =>
    intro es es' s v _ hv hstr hs _
    obtain ⟨s1, k1, k2⟩ := hs.skip
    rw [show dropWs es = _ from hstr] at k2
    obtain ⟨h1, s2, h3, h4⟩ := k2
    cases (show some (truth (isDef Δ w)) = some v from hv)
    refine unary ⟨s2, .succ ?_, h4⟩
    simp only [evalUnary]
    refine .bind k1 (.get (.neg (by rw [h1]; decide) (.neg (by rw [h1]; decide) (.pos h1 ?_))))
    exact h3
  | not e ih =>
    intro es es' s v hok hv hstr hs ha
    obtain ⟨m, hm, hstr⟩ := hstr
    obtain ⟨s1, k1, k2⟩ := hs.skip
    rw [hm] at k2
    obtain ⟨hty, s2, h3, h4⟩ := has_op k2
    obtain ⟨x, hx, rfl⟩ := Option.map_eq_some_iff.mp (show (val Δ e).map (fun v => truth (v = 0)) = some v from hv)
    obtain ⟨v0, s3, s4, g1, g2, g3, _⟩ := ih m es' s2 x hok.2 hx hstr h4.at0 (by rw [hok.1]; exact ha)
    obtain ⟨rfl, rfl⟩ := g3 hok.1
    have hty : s1.tok.ty = 0x21 := hty
    refine ⟨_, s3, s3, .succ (f := evalUnary) ?_, g2, fun _ => ⟨rfl, rfl⟩, fun _ _ _ _ h => h, fun _ _ _ _ _ h => h⟩
    simp only [evalUnary]
    refine .bind k1 (.get (.neg (by rw [hty]; decide) (.neg (by rw [hty]; decide) (.neg (by rw [hty]; decide) (.pos hty (.bind h3 (.bind g1 (.of ?_))))))))
    exact congrArg (fun x => Res.ok x s3) (ofBool_truth (by simp))
  | par e ih =>
    intro es es' s v hok hv hstr hs _
    obtain ⟨m, m', hm, hstr, hm'⟩ := hstr
    obtain ⟨s1, k1, k2⟩ := hs.skip
    rw [hm] at k2
    obtain ⟨hty, s2, h3, h4⟩ := has_op k2
    have hty : s1.tok.ty = 0x28 := hty
    have hab : Above 15 m' := .inr ⟨_, _, hm', by decide⟩
    obtain ⟨v0, s3, s4, g1, g2, _, g3, _⟩ := ih m m' s2 v hok hv hstr h4.at0 (hab.mono (Nat.le_trans (lvl_le hok) (by decide)))
    obtain ⟨s5, j1, j2⟩ := g2.skip
    have g4 := g3 15 v s5 (Nat.le_trans (lvl_le hok) (by decide)) (stop1 v hab j1 j2 (Nat.le_refl _))
    rw [hm'] at j2
    obtain ⟨hty5, s6, j3, j4⟩ := has_op j2
    refine unary ⟨s6, .succ ?_, j4⟩
    simp only [evalUnary]
    exact .bind k1 (.get (.neg (by rw [hty]; decide) (.neg (by rw [hty]; decide) (.neg (by rw [hty]; decide) (.neg (by rw [hty]; decide) (.pos hty
      (.bind h3 (.bind g1 (.bind g4 (.bind (expect_eq hty5 j3) (.of rfl)))))))))))
  | bin op l r ihl ihr =>
    intro es es' s v hok hv hstr hs ha
    obtain ⟨hop, hgt, hl, hr, okl, okr⟩ := hok
    obtain ⟨m, m', hsl, hm, hsr⟩ := hstr
    obtain ⟨vl, hvl, hv⟩ := Option.bind_eq_some_iff.mp (show (val Δ l).bind (fun a => (val Δ r).bind fun b => opVal op a b) = some v from hv)
    obtain ⟨vr, hvr, hv⟩ := Option.bind_eq_some_iff.mp hv
    obtain ⟨f1, f2, f3, f4, f5, f6, f7⟩ := level_fact hop
    have hlr : r.lvl ≤ level op := by
      rcases hr with h | h
      · omega
      · cases r with
        | bin o _ _ => simp only [Ex.top, Option.some.injEq] at h; rw [h]; exact Nat.le_refl _
        | _ => cases h
    have ha : Above (level op) es' := ha
    obtain ⟨v0, s1, sl, g1, g2, _, gA, gB⟩ := ihl es m s vl okl hvl hsl hs (.inr ⟨op, m', hm, by rw [f1]; exact hl⟩)
    obtain ⟨s2, k1, k2⟩ := g2.skip
    rw [hm] at k2
    obtain ⟨hty, s3, k3, k4⟩ := has_op k2
    obtain ⟨vr0, s4, sr, e1, e2, _, _, eB⟩ := ihr m' es' s3 vr okr hvr hsr k4.at0 (ha.mono hlr)
    obtain ⟨s', j1, j2⟩ := e2.skip
    have hrhs := eB (by omega) (level op) vr s' hlr (stopR vr ha j1 j2 (Nat.le_refl _))
    refine ⟨v0, s1, s', g1, j2.at0', fun h => absurd h (by show ¬ level op = 0; omega), ?_, ?_⟩
    · intro outer w s'' ho h
      have ho : level op ≤ outer := ho
      exact gA outer w s'' (by omega) (bin_step hop hgt hv k1 k2 ⟨s3, k3, e1⟩ hrhs ho h)
    · intro _ p w s'' hp h
      have hp : level op ≤ p := hp
      refine gB (by omega) p w s'' (by omega) (.succ ?_)
      simp only [evalRhs]
      refine .bind k1 (.get ?_)
      have hstep := bin_step (outer := level op) hop hgt hv (Has.noskip (es := m) (by rw [hm]; exact k2)) k2 ⟨s3, k3, e1⟩ hrhs (Nat.le_refl _)
        (stop1 v ha j2.noskip j2 (Nat.le_refl _))
      rw [hty]
      exact .neg (by omega) (.neg (by rw [f1]; omega) (.bind (by rw [f1]; exact hstep) h))
  | cond c a b ihc iha ihb =>
    intro es es' s v hok hv hstr hs ha
    obtain ⟨hc, okc, oka, okb⟩ := hok
    obtain ⟨m1, m2, m3, m4, t1, t2, t3, t4, t5⟩ := hstr
    obtain ⟨vc, hvc, hv⟩ := Option.bind_eq_some_iff.mp
      (show (val Δ c).bind (fun x => (val Δ a).bind fun y => (val Δ b).bind fun z => some (if x ≠ 0 then y else z)) = some v from hv)
    obtain ⟨va, hva, hv⟩ := Option.bind_eq_some_iff.mp hv
    obtain ⟨vb, hvb, hv⟩ := Option.bind_eq_some_iff.mp hv
    simp only [Option.some.injEq] at hv
    subst hv
    have ha : Above 13 es' := ha
    obtain ⟨v0, s1, sc, g1, g2, _, gA, _⟩ := ihc es m1 s vc okc hvc t1 hs (.inr ⟨_, _, t2, by show c.lvl < 13; exact hc⟩)
    obtain ⟨s2, k1, k2⟩ := g2.skip
    rw [t2] at k2
    obtain ⟨hty, s3, k3, k4⟩ := has_op k2
    have hty : s2.tok.ty = 0x3F := hty
    have hab : Above 15 m3 := .inr ⟨_, _, t4, by decide⟩
    obtain ⟨a0, s4, sa, e1, e2, _, eA, _⟩ := iha m2 m3 s3 va oka hva t3 k4.at0 (hab.mono (Nat.le_trans (lvl_le oka) (by decide)))
    obtain ⟨s5, j1, j2⟩ := e2.skip
    have ea := eA 14 va s5 (Nat.le_trans (lvl_le oka) (by decide)) (stop1 va hab j1 j2 (by decide))
    rw [t4] at j2
    obtain ⟨hty5, s6, j3, j4⟩ := has_op j2
    obtain ⟨b0, s7, sb, d1, d2, _, dA, _⟩ := ihb m4 es' s6 vb okb hvb t5 j4.at0 (ha.mono (lvl_le okb))
    obtain ⟨s', i1, i2⟩ := d2.skip
    have eb := dA 14 vb s' (Nat.le_trans (lvl_le okb) (by decide)) (stop1 vb ha.high i1 i2 (by decide))
    refine ⟨v0, s1, s', g1, i2.at0', fun h => absurd h (by show ¬ 13 = 0; decide), ?_, fun h => absurd h (by show ¬ 13 < 13; decide)⟩
    intro outer w s'' ho h
    have ho : 13 ≤ outer := ho
    refine gA outer w s'' (by omega) (.succ ?_)
    simp only [evalExpr1]
    refine .bind k1 (.get ?_)
    rw [hty]
    exact .neg (by decide) (.neg (by show ¬ outer < 13; omega) (.bind k3 (.pos rfl (.bind e1 (.bind ea (.bind (expect_eq hty5 j3) (.bind d1 (.bind eb h))))))))

/-- The value of the expression of a line. -/
theorem evalExpr_eq (hnd : (names Δ).Nodup) {e : Ex} {es es' : List El} {s : S} {v : Int} (hok : OkR Δ e) (hv : val Δ e = some v) (hstr : Str e es es') (hend : dropWs es' = []) (hs : Has Δ Q es s) :
    ∃ s', Runs evalExpr s v s' ∧ s'.tok.ty = tokNl ∧ Q s' := by
  have hab : Above 15 es' := .inl hend
  obtain ⟨v0, s1, s2, g1, g2, _, gA, _⟩ := eval hnd e es es' s v hok hv hstr hs.at0 (hab.mono (Nat.le_trans (lvl_le hok) (by decide)))
  obtain ⟨s', j1, j2⟩ := g2.skip
  refine ⟨s', .bind g1 (gA 15 v s' (Nat.le_trans (lvl_le hok) (by decide)) (stop1 v hab j1 j2 (Nat.le_refl _))), ?_⟩
  rw [hend] at j2
  exact j2

/-! ## Grouping -/

/-- The grammar of C: operators of one level group to the left. -/
def Gram : Ex → Prop
  | .num _ => True
  | .name _ => True
  | .dfn _ => True
  | .not e => e.lvl = 0 ∧ Gram e
  | .par e => Gram e
  | .bin op l r => op ∈ levels.map (·.1) ∧ l.lvl ≤ level op ∧ r.lvl < level op ∧ Gram l ∧ Gram r
  | .cond c a b => c.lvl < 13 ∧ Gram c ∧ Gram a ∧ Gram b

/-- The expressions the preprocessor evaluates rightly: no `>`; operators of one level side by side only in chains of one of `& ^ | && ||`;
identifiers that are not names of directives. -/
def Tame (Δ : Table) : Ex → Prop
  | .num _ => True
  | .name w => lookup Δ w = none ∧ w ∉ builtins
  | .dfn _ => True
  | .not e => Tame Δ e
  | .par e => Tame Δ e
  | .bin op l r => op ≠ asc ">" ∧ (l.lvl = level op → l.top = some op ∧ op ∈ assocOps) ∧ Tame Δ l ∧ Tame Δ r
  | .cond c a b => Tame Δ c ∧ Tame Δ a ∧ Tame Δ b

/-- The value in C, where the second operand of `&&` and `||` and the operands of `?:` count only if they are evaluated. -/
def cval (Δ : Table) : Ex → Option Int
  | .num w => (numVal w).bind fun n => rng n
  | .name _ => some 0
  | .dfn w => some (truth (isDef Δ w))
  | .not e => (cval Δ e).map fun v => truth (v = 0)
  | .par e => cval Δ e
  | .bin op l r => (cval Δ l).bind fun a =>
      if op = asc "&&" ∧ a = 0 then some 0 else if op = asc "||" ∧ a ≠ 0 then some 1 else (cval Δ r).bind fun b => opVal op a b
  | .cond c a b => (cval Δ c).bind fun x => if x ≠ 0 then cval Δ a else cval Δ b

theorem cval_of_val (e : Ex) : ∀ v, val Δ e = some v → cval Δ e = some v := by
  induction e with
  | num w => exact fun v h => h
  | name w => exact fun v h => h
  | dfn w => exact fun v h => h
  | not e ih =>
    intro v h
    obtain ⟨x, hx, rfl⟩ := Option.map_eq_some_iff.mp (show (val Δ e).map (fun v => truth (v = 0)) = some v from h)
    simp [cval, ih x hx]
  | par e ih => exact ih
  | bin op l r ihl ihr =>
    intro v hv
    obtain ⟨vl, hvl, hv⟩ := Option.bind_eq_some_iff.mp (show (val Δ l).bind (fun a => (val Δ r).bind fun b => opVal op a b) = some v from hv)
    obtain ⟨vr, hvr, hv⟩ := Option.bind_eq_some_iff.mp hv
    simp only [cval, ihl _ hvl, ihr _ hvr, Option.bind_some]
    split
    · rename_i h
      obtain ⟨rfl, rfl⟩ := h
      have hv : some (truth ((0 : Int) ≠ 0 ∧ vr ≠ 0)) = some v := hv
      rw [← hv]; simp [truth]
    · split
      · rename_i h
        obtain ⟨rfl, h⟩ := h
        have hv : some (truth (vl ≠ 0 ∨ vr ≠ 0)) = some v := hv
        rw [← hv]; simp [truth, h]
      · exact hv
  | cond c a b ihc iha ihb =>
    intro v hv
    obtain ⟨vc, hvc, hv⟩ := Option.bind_eq_some_iff.mp
      (show (val Δ c).bind (fun x => (val Δ a).bind fun y => (val Δ b).bind fun z => some (if x ≠ 0 then y else z)) = some v from hv)
    obtain ⟨va, hva, hv⟩ := Option.bind_eq_some_iff.mp hv
    obtain ⟨vb, hvb, hv⟩ := Option.bind_eq_some_iff.mp hv
    simp only [cval, ihc _ hvc, iha _ hva, ihb _ hvb, Option.bind_some]
    rw [← hv]
    split <;> rfl

/-- `l op r`, grouped to the right if `l` is a chain of `op`. -/
def app (op : List Byte) : Ex → Ex → Ex
  | .bin o l1 l2, r => if o = op then .bin op l1 (app op l2 r) else .bin op (.bin o l1 l2) r
  | l, r => .bin op l r

/-- Group the chains to the right. -/
def rot : Ex → Ex
  | .num w => .num w
  | .name w => .name w
  | .dfn w => .dfn w
  | .not e => .not (rot e)
  | .par e => .par (rot e)
  | .bin op l r => if op ∈ assocOps then app op (rot l) (rot r) else .bin op (rot l) (rot r)
  | .cond c a b => .cond (rot c) (rot a) (rot b)

theorem app_top (op : List Byte) (l r : Ex) : (app op l r).top = some op ∧ (app op l r).lvl = level op := by
  cases l with
  | bin o l1 l2 =>
    simp only [app]
    split <;> exact ⟨rfl, rfl⟩
  | _ => exact ⟨rfl, rfl⟩

theorem rot_top (e : Ex) : (rot e).top = e.top ∧ (rot e).lvl = e.lvl := by
  cases e with
  | bin op l r =>
    simp only [rot]
    split
    · exact app_top _ _ _
    · exact ⟨rfl, rfl⟩
  | _ => exact ⟨rfl, rfl⟩

theorem str_app (op : List Byte) (l : Ex) : ∀ (r : Ex) (es es' : List El), Str (.bin op l r) es es' → Str (app op l r) es es' := by
  induction l with
  | bin o l1 l2 _ ih2 =>
    intro r es es' h
    simp only [app]
    split
    · rename_i e
      subst e
      obtain ⟨m, m', ⟨p, p', h1, h2, h3⟩, h4, h5⟩ := h
      exact ⟨p, p', h1, h2, ih2 r p' es' ⟨m, m', h3, h4, h5⟩⟩
    · exact h
  | _ => exact fun r es es' h => h

theorem str_rot (e : Ex) : ∀ (es es' : List El), Str e es es' → Str (rot e) es es' := by
  induction e with
  | num w => exact fun _ _ h => h
  | name w => exact fun _ _ h => h
  | dfn w => exact fun _ _ h => h
  | not e ih => exact fun _ _ ⟨m, h1, h2⟩ => ⟨m, h1, ih _ _ h2⟩
  | par e ih => exact fun _ _ ⟨m, m', h1, h2, h3⟩ => ⟨m, m', h1, ih _ _ h2, h3⟩
  | bin op l r ihl ihr =>
    rintro es es' ⟨m, m', h1, h2, h3⟩
    have h : Str (.bin op (rot l) (rot r)) es es' := ⟨m, m', ihl _ _ h1, h2, ihr _ _ h3⟩
    simp only [rot]
    split
    · exact str_app _ _ _ _ _ h
    · exact h
  | cond c a b ihc iha ihb => exact fun _ _ ⟨m1, m2, m3, m4, h1, h2, h3, h4, h5⟩ => ⟨m1, m2, m3, m4, ihc _ _ h1, h2, iha _ _ h3, h4, ihb _ _ h5⟩

theorem truth_ne (p : Prop) [Decidable p] : truth p ≠ 0 ↔ p := by
  unfold truth
  split <;> simp_all

theorem truth_congr {p q : Prop} [Decidable p] [Decidable q] (h : p ↔ q) : truth p = truth q := by
  unfold truth
  by_cases hp : p
  · rw [if_pos hp, if_pos (h.mp hp)]
  · rw [if_neg hp, if_neg (fun hq => hp (h.mpr hq))]

theorem opVal_assoc {op : List Byte} (h : op ∈ assocOps) (a b c : Int) :
    ((opVal op a b).bind fun x => opVal op x c) = (opVal op b c).bind fun x => opVal op a x := by
  simp only [assocOps, List.mem_cons, List.not_mem_nil, or_false] at h
  rcases h with rfl | rfl | rfl | rfl | rfl
  · show some (onBits (· &&& ·) (onBits (· &&& ·) a b) c) = some (onBits (· &&& ·) a (onBits (· &&& ·) b c))
    simp only [onBits, BitVec.ofInt_toInt, BitVec.and_assoc]
  · show some (onBits (· ^^^ ·) (onBits (· ^^^ ·) a b) c) = some (onBits (· ^^^ ·) a (onBits (· ^^^ ·) b c))
    simp only [onBits, BitVec.ofInt_toInt, BitVec.xor_assoc]
  · show some (onBits (· ||| ·) (onBits (· ||| ·) a b) c) = some (onBits (· ||| ·) a (onBits (· ||| ·) b c))
    simp only [onBits, BitVec.ofInt_toInt, BitVec.or_assoc]
  · show some (truth (truth (a ≠ 0 ∧ b ≠ 0) ≠ 0 ∧ c ≠ 0)) = some (truth (a ≠ 0 ∧ truth (b ≠ 0 ∧ c ≠ 0) ≠ 0))
    exact congrArg some (truth_congr (by rw [truth_ne, truth_ne, and_assoc]))
  · show some (truth (truth (a ≠ 0 ∨ b ≠ 0) ≠ 0 ∨ c ≠ 0)) = some (truth (a ≠ 0 ∨ truth (b ≠ 0 ∨ c ≠ 0) ≠ 0))
    exact congrArg some (truth_congr (by rw [truth_ne, truth_ne, or_assoc]))

theorem val_app {op : List Byte} (h : op ∈ assocOps) (l : Ex) : ∀ r, val Δ (app op l r) = val Δ (.bin op l r) := by
  induction l with
  | bin o l1 l2 _ ih2 =>
    intro r
    simp only [app]
    split
    · rename_i e
      subst e
      simp only [val, ih2 r]
      cases val Δ l1 with
      | none => rfl
      | some a =>
        cases val Δ l2 with
        | none => rfl
        | some b =>
          cases val Δ r with
          | none => simp
          | some c => exact (opVal_assoc h a b c).symm
    · rfl
  | _ => exact fun r => rfl

theorem val_rot (e : Ex) : val Δ (rot e) = val Δ e := by
  induction e with
  | num w => rfl
  | name w => rfl
  | dfn w => rfl
  | not e ih => simp only [rot, val, ih]
  | par e ih => simp only [rot, val, ih]
  | bin op l r ihl ihr =>
    have h : val Δ (.bin op (rot l) (rot r)) = val Δ (.bin op l r) := by simp only [val, ihl, ihr]
    simp only [rot]
    split
    · rename_i ho
      rw [val_app ho, h]
    · exact h
  | cond c a b ihc iha ihb => simp only [rot, val, ihc, iha, ihb]

theorem okR_app {op : List Byte} (hop : op ∈ levels.map (·.1)) (hgt : op ≠ asc ">") (l : Ex) : ∀ r, OkR Δ l → OkR Δ r → (l.lvl < level op ∨ l.top = some op) → r.lvl < level op →
    OkR Δ (app op l r) := by
  induction l with
  | bin o l1 l2 _ ih2 =>
    intro r hl hr hc hlt
    simp only [app]
    split
    · rename_i e
      subst e
      exact ⟨hop, hgt, hl.2.2.1, .inr (app_top _ _ _).1, hl.2.2.2.2.1, ih2 r hl.2.2.2.2.2 hr hl.2.2.2.1 hlt⟩
    · rename_i e
      refine ⟨hop, hgt, ?_, .inl hlt, hl, hr⟩
      rcases hc with hc | hc
      · exact hc
      · exact absurd (Option.some.inj hc) e
  | _ =>
    intro r hl hr hc hlt
    refine ⟨hop, hgt, ?_, .inl hlt, hl, hr⟩
    rcases hc with hc | hc
    · exact hc
    · cases hc

theorem okR_rot (e : Ex) : Gram e → Tame Δ e → OkR Δ (rot e) := by
  induction e with
  | num w => exact fun _ _ => trivial
  | name w => exact fun _ h => h
  | dfn w => exact fun _ _ => trivial
  | not e ih => exact fun h h' => ⟨by rw [(rot_top e).2]; exact h.1, ih h.2 h'⟩
  | par e ih => exact fun h h' => ih h h'
  | bin op l r ihl ihr =>
    rintro ⟨g1, g2, g3, g4, g5⟩ ⟨t1, t2, t3, t4⟩
    simp only [rot]
    split
    · refine okR_app g1 t1 _ _ (ihl g4 t3) (ihr g5 t4) ?_ (by rw [(rot_top r).2]; exact g3)
      rw [(rot_top l).2, (rot_top l).1]
      rcases Nat.lt_or_eq_of_le g2 with h | h
      · exact .inl h
      · exact .inr (t2 h).1
    · rename_i ho
      refine ⟨g1, t1, ?_, .inl (by rw [(rot_top r).2]; exact g3), ihl g4 t3, ihr g5 t4⟩
      rw [(rot_top l).2]
      rcases Nat.lt_or_eq_of_le g2 with h | h
      · exact h
      · exact absurd (t2 h).2 ho
  | cond c a b ihc iha ihb =>
    rintro ⟨g1, g2, g3, g4⟩ ⟨t1, t2, t3⟩
    exact ⟨by rw [(rot_top c).2]; exact g1, ihc g2 t1, iha g3 t2, ihb g4 t3⟩

/-- The value of the expression of a line, in the grammar of C. -/
theorem evalExpr_c (hnd : (names Δ).Nodup) {e : Ex} {es es' : List El} {s : S} {v : Int} (hg : Gram e) (ht : Tame Δ e) (hv : val Δ e = some v) (hstr : Str e es es') (hend : dropWs es' = [])
    (hs : Has Δ Q es s) : ∃ s', Runs evalExpr s v s' ∧ s'.tok.ty = tokNl ∧ Q s' :=
  evalExpr_eq hnd (okR_rot e hg ht) ((val_rot e).trans hv) (str_rot e _ _ hstr) hend hs

end Props.ScppExpr
