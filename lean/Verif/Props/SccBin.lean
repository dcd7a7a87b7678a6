import Verif.Props.SccCode
import Verif.Scc.Expr
import Verif.Scc.Parse
/-!
# The code `scc.c` emits for binary operators (C39)
-/
namespace SccCode
open Prog Scc I86
open I86.Cpu hiding lo hi rd

/-! ## Specification: the operators of C on 16-bit words -/

inductive BOp | add | sub | mul | div | mod | and | xor | or | shl | shr | lt | le | gt | ge | eq | ne
  deriving DecidableEq, Repr

/-- The token of the operator. -/
def BOp.tok : BOp → Nat
  | .add => 0x2B | .sub => 0x2D | .mul => 0x2A | .div => 0x2F | .mod => 0x25 | .and => 0x26 | .xor => 0x5E | .or => 0x7C
  | .shl => tokLsh | .shr => tokRsh | .lt => 0x3C | .le => tokLtEq | .gt => 0x3E | .ge => tokGtEq | .eq => tokEqEq | .ne => tokNotEq

def b2w (b : Bool) : Word := if b then 1 else 0

/-- The comparison of two words, as unsigned or signed numbers. -/
def BOp.cmp (u : Bool) (a b : Word) : BOp → Option Bool
  | .lt => some (if u then decide (a.toNat < b.toNat) else decide (a.toInt < b.toInt))
  | .le => some (if u then decide (a.toNat ≤ b.toNat) else decide (a.toInt ≤ b.toInt))
  | .gt => some (if u then decide (b.toNat < a.toNat) else decide (b.toInt < a.toInt))
  | .ge => some (if u then decide (b.toNat ≤ a.toNat) else decide (b.toInt ≤ a.toInt))
  | .eq => some (decide (a = b))
  | .ne => some (decide (a ≠ b))
  | _ => none

/-- The value of `a op b` in C with 16-bit integers that wrap around, `none` if it is undefined: division by zero, a quotient that is no
`int`, shift counts that are not in `0..15`. -/
def BOp.sem (u : Bool) (op : BOp) (a b : Word) : Option Word :=
  match op with
  | .add => some (a + b)
  | .sub => some (a - b)
  | .mul => some (a * b)
  | .div =>
    if b = 0 then none
    else if u then some (BitVec.ofNat 16 (a.toNat / b.toNat))
    else if a.toInt = -32768 ∧ b.toInt = -1 then none
    else some (BitVec.ofInt 16 (a.toInt.tdiv b.toInt))
  | .mod =>
    if b = 0 then none
    else if u then some (BitVec.ofNat 16 (a.toNat % b.toNat))
    else if a.toInt = -32768 ∧ b.toInt = -1 then none
    else some (BitVec.ofInt 16 (a.toInt.tmod b.toInt))
  | .and => some (a &&& b)
  | .xor => some (a ^^^ b)
  | .or => some (a ||| b)
  | .shl => if b.toNat < 16 then some (a <<< b.toNat) else none
  | .shr => if b.toNat < 16 then some (if u then a >>> b.toNat else a.sshiftRight b.toNat) else none
  | op => (op.cmp u a b).map b2w

/-! ## The bytes -/

/-- The opcode and the condition code of the operations of the ALU. -/
def BOp.alu (u : Bool) (op : BOp) : Option (Nat × Nat) := getSimpleALU op.tok u

/-- The bytes of `DoBinOp`. -/
def binBytes (u : Bool) (op : BOp) (r : Nat) : List Byte :=
  match op.alu u with
  | some (inst, _) => [nb inst, nb (0xC0 ||| r * 8)]
  | none =>
    match op with
    | .mul => [0xF7, nb (0xE0 ||| r)]
    | .div => divBytes u
    | .mod => divBytes u ++ [0x92]
    | .shl => [0xD3, 0xE0]
    | _ => [0xD3, if u then 0xE8 else 0xF8]

/-- The condition code of a comparison, 0 for the other operators. -/
def BOp.cc (u : Bool) (op : BOp) : Nat := ((op.alu u).map (·.2)).getD 0

theorem binOp_raw (op : BOp) (r : Nat) (s : S) (hs : Live s) (hr : r = 1 ∨ op = .mul ∨ (op.alu s.isUnsigned).isSome) :
    doBinOp op.tok r s = (raw (binBytes s.isUnsigned op r) >>= fun _ => finishOp (op.cc s.isUnsigned)) s := by
  unfold doBinOp
  refine run_getS ?_
  unfold binBytes BOp.cc
  have e : getSimpleALU op.tok s.isUnsigned = op.alu s.isUnsigned := rfl
  rw [e]
  cases h : op.alu s.isUnsigned with
  | some p => exact bind_run _ _ _ ▸ hs.output _ ▸ rfl
  | none =>
    rw [h] at hr
    cases op <;> first | (exfalso; revert h; cases s.isUnsigned <;> decide) | skip
    · exact (hs.output _).trans (run_unit (x := raw _) rfl).symm
    · obtain rfl : r = 1 := by simpa using hr
      exact (div_raw s hs).trans (run_unit (x := raw _) rfl).symm
    · obtain rfl : r = 1 := by simpa using hr
      refine (live_bind hs (div_raw s hs) fun s' hs' => hs'.output _).trans (run_unit (x := raw _) rfl).symm
    · obtain rfl : r = 1 := by simpa using hr
      exact (hs.output _).trans (run_unit (x := raw _) rfl).symm
    · obtain rfl : r = 1 := by simpa using hr
      exact (hs.output _).trans (run_unit (x := raw _) rfl).symm

/-! ## Their effect -/

theorem cond_xor (c : Cpu) (cc : Fin 16) : c.cond (cc ^^^ 1) = (c.cond cc).map (!·) := by
  have h : ∀ cc : Fin 16, (cc ^^^ 1).val / 2 = cc.val / 2 ∧ ((cc ^^^ 1).val % 2 = 0 ↔ ¬ cc.val % 2 = 0) := by decide
  unfold Cpu.cond
  rw [(h cc).1]
  simp only
  rw [Option.map_map]
  congr 1
  funext b
  simp only [Function.comp, (h cc).2]
  by_cases hc : cc.val % 2 = 0 <;> simp [hc]

/-- The bytes with which `GetVal` turns a condition into 0 or 1. -/
def boolBytes (cc : Nat) : List Byte := [0xB8, 0, 0] ++ [nb (0x70 ||| (cc ^^^ 1)), 1, 0x40]

theorem enc_jcc (cc : Fin 16) (b : Byte) : Enc [nb (0x70 ||| cc.val), b] (.jcc cc (b.signExtend 16)) := by
  refine ⟨by simp, fun junk => ?_⟩
  have h : ∀ cc : Fin 16, decodeOp none none (nb (0x70 ||| cc.val)) [] = none ∧ (nb (0x70 ||| cc.val)).toNat = 0x70 + cc.val := by decide
  obtain ⟨_, h⟩ := h cc
  have hlt := cc.isLt
  show decode (nb (0x70 ||| cc.val) :: b :: junk) = _
  unfold decode
  simp only
  split <;> first | (exfalso; omega) | skip
  unfold decodeOp
  simp only [h]
  rw [if_neg (by omega), if_neg (by omega), if_neg (by omega), if_neg (by omega), if_neg (by omega), if_neg (by omega), if_pos (by omega)]
  have : (0x70 + cc.val) % 16 = cc.val := by omega
  simp only [this]
  rfl

theorem cond_congr {c c' : Cpu} (h1 : c'.cf = c.cf) (h2 : c'.zf = c.zf) (h3 : c'.sf = c.sf) (h4 : c'.of = c.of) (cc : Fin 16) :
    c'.cond cc = c.cond cc := by
  unfold Cpu.cond
  rw [h1, h2, h3, h4]

theorem xor_val (cc : Fin 16) : (cc ^^^ 1).val = cc.val ^^^ 1 := by
  revert cc; decide

/-- `MOV AX, 0`, `Jcc` and `INC AX`. -/
theorem at_bool (K : Contract) (c : Cpu) (cc : Fin 16) (b : Bool) (h : c.cond cc = some b) :
    At K c (boolBytes cc.val) (Upto { c with ax := b2w b }) := by
  refine At.append (P := fun c1 => c1 = { c with ax := 0, ip := c.ip + 3 })
    (.one (ins := .movImm true (.reg 0) 0) ⟨by simp, fun _ => rfl⟩ ⟨_, rfl, rfl, rfl⟩) ?_
  rintro c1 rfl
  refine ⟨⟨rfl, rfl⟩, fun hc => ?_⟩
  have hj := enc_jcc (cc ^^^ 1) 1
  rw [xor_val] at hj
  have hc2 : codeAt { c with ax := 0, ip := c.ip + 3 } (c.ip + 3) ([nb (0x70 ||| (cc.val ^^^ 1)), 1] ++ [0x40]) := hc
  rw [codeAt_append] at hc2
  have hcond : ∀ n, cond { c with ax := 0, ip := n } (cc ^^^ 1) = some (!b) := by
    intro n
    refine (cond_congr (c := c) rfl rfl rfl rfl _).trans ?_
    rw [cond_xor, h]; rfl
  cases b with
  | false =>
    refine .step (c1 := { c with ax := 0, ip := c.ip + 6 }) ((step_enc hj hc2.1).trans ?_) (.done ⟨?_, rfl⟩)
    · rw [exec_jcc, hcond, jumpIf_some]
      simp only [Bool.not_false, if_true, BitVec.add_assoc]
      rfl
    · simp only [BitVec.add_assoc]; rfl
  | true =>
    refine .step (c1 := { c with ax := 0, ip := c.ip + 5 }) ((step_enc hj hc2.1).trans ?_)
      (.step (c1 := { c with ax := 1, ip := c.ip + 6, zf := Flag.of K.incDecFlags false, sf := Flag.of K.incDecFlags false, of := Flag.of K.incDecFlags false })
        ((step_enc (bytes := [0x40]) (i := .incDec false true (.reg 0)) ⟨by simp, fun _ => rfl⟩ ?_).trans ?_) (.done ⟨?_, rfl⟩))
    · rw [exec_jcc, hcond, jumpIf_some]
      simp only [Bool.not_true, Bool.false_eq_true, if_false, BitVec.add_assoc]
      rfl
    · have := hc2.2
      rw [BitVec.add_assoc] at this
      exact this
    · simp only [i86x, BitVec.add_assoc]; rfl
    · simp only [BitVec.add_assoc]; rfl

/-! ### Comparisons -/

theorem signed_lt (a b : Word) : ((a - b).msb != outOfRange 16 (a.toInt - b.toInt)) = decide (a.toInt < b.toInt) := by
  have h1 : (a - b).msb = decide ((a - b).toInt < 0) := by
    rw [BitVec.msb_eq_toInt]
  have ha := BitVec.toInt_lt (x := a); have ha' := BitVec.le_toInt (x := a)
  have hb := BitVec.toInt_lt (x := b); have hb' := BitVec.le_toInt (x := b)
  rw [h1, BitVec.toInt_sub, Int.bmod_def]
  unfold outOfRange
  simp only [Nat.add_one_sub_one] at *
  by_cases h : a.toInt < b.toInt <;> simp only [h, decide_true, decide_false]
  · by_cases h2 : a.toInt - b.toInt < -2 ^ 15
    · simp only [h2, decide_true, Bool.true_or]
      have : ¬ ((a.toInt - b.toInt) % ((2 ^ 16 : Nat) : Int) - 0 < 0) := by omega
      split <;> simp <;> omega
    · have h3 : ¬ (2 ^ 15 ≤ a.toInt - b.toInt) := by omega
      simp only [h2, h3, decide_false, Bool.or_self]
      split <;> simp <;> omega
  · by_cases h2 : 2 ^ 15 ≤ a.toInt - b.toInt
    · simp only [h2, decide_true, Bool.or_true]
      split <;> simp <;> omega
    · have h3 : ¬ (a.toInt - b.toInt < -2 ^ 15) := by omega
      simp only [h2, h3, decide_false, Bool.or_self]
      split <;> simp <;> omega

/-- The flags after `CMP` of two words. -/
structure Cmp (a b : Word) (c : Cpu) : Prop where
  cf : c.cf = some (decide (a.toNat < b.toNat))
  zf : c.zf = some (a - b == 0)
  sf : c.sf = some (a - b).msb
  of : c.of = some (outOfRange 16 (a.toInt - b.toInt))

theorem sub_zero (a b : Word) : (a - b == 0) = decide (a = b) := by
  by_cases h : a = b
  · subst h; simp
  · simp only [h, decide_false, beq_eq_false_iff_ne, ne_eq]
    intro e
    apply h
    bv_omega

/-- The condition code chosen for a comparison tests that comparison. -/
theorem cmp_cond {a b : Word} {c : Cpu} (h : Cmp a b c) (u : Bool) (op : BOp) (v : Bool) (ho : op.cmp u a b = some v) :
    op.cc u < 16 ∧ c.cond (Fin.ofNat 16 (op.cc u)) = some v := by
  have hn : a.toNat ≤ b.toNat ↔ a.toNat < b.toNat ∨ a = b := by
    rw [Nat.le_iff_lt_or_eq]; exact or_congr_right ⟨BitVec.eq_of_toNat_eq, fun e => by rw [e]⟩
  have hi : a.toInt ≤ b.toInt ↔ a = b ∨ a.toInt < b.toInt := by
    rw [Int.le_iff_lt_or_eq, or_comm]; exact or_congr_left ⟨BitVec.eq_of_toInt_eq, fun e => by rw [e]⟩
  have hsz := sub_zero a b
  have hslt := signed_lt a b
  cases op <;> simp only [BOp.cmp, reduceCtorEq, Option.some.injEq] at ho <;> subst ho <;> refine ⟨by cases u <;> decide, ?_⟩
  · cases u
    · show c.cond 12 = _
      rw [cond_12, h.sf, h.of, Option.bind_some, Option.map_some, hslt]; rfl
    · show c.cond 2 = _
      rw [cond_2, h.cf]; rfl
  · cases u
    · show c.cond 14 = _
      rw [cond_14, h.zf, h.sf, h.of, Option.bind_some, Option.bind_some, Option.map_some, hslt, hsz]
      simp [hi]
    · show c.cond 6 = _
      rw [cond_6, h.cf, h.zf, Option.bind_some, Option.map_some, hsz]
      simp [hn]
  · cases u
    · show c.cond 15 = _
      rw [cond_15, h.zf, h.sf, h.of, Option.bind_some, Option.bind_some, Option.map_some, hslt, hsz]
      refine congrArg some (Bool.eq_iff_iff.mpr ?_)
      simp only [Bool.not_eq_true', Bool.or_eq_false_iff, decide_eq_false_iff_not, decide_eq_true_eq, Bool.false_eq_true, if_false]
      rw [← not_or, ← hi, Int.not_le]
    · show c.cond 7 = _
      rw [cond_7, h.cf, h.zf, Option.bind_some, Option.map_some, hsz]
      refine congrArg some (Bool.eq_iff_iff.mpr ?_)
      simp only [Bool.not_eq_true', Bool.or_eq_false_iff, decide_eq_false_iff_not, decide_eq_true_eq, if_true]
      rw [← not_or, ← hn, Nat.not_le]
  · cases u
    · show c.cond 13 = _
      rw [cond_13, h.sf, h.of, Option.bind_some, Option.map_some, hslt, ← decide_not]
      simp only [Int.not_lt]; rfl
    · show c.cond 3 = _
      rw [cond_3, h.cf, Option.map_some, ← decide_not]
      simp only [Nat.not_lt]; rfl
  · have : BOp.cc u .eq = 4 := by cases u <;> rfl
    rw [this]
    show c.cond 4 = _
    rw [cond_4, h.zf, hsz]
  · have : BOp.cc u .ne = 5 := by cases u <;> rfl
    rw [this]
    show c.cond 5 = _
    rw [cond_5, h.zf, hsz, Option.map_some]; simp

/-! ### The operators -/

/-- The operation of the processor. -/
def BOp.cpu : BOp → Option AluOp
  | .add => some .add
  | .sub => some .sub
  | .and => some .and
  | .xor => some .xor
  | .or => some .or
  | .lt | .le | .gt | .ge | .eq | .ne => some .cmp
  | _ => none

theorem enc_alu (u : Bool) (op : BOp) (a : AluOp) (i k : Nat) (h : op.alu u = some (i, k)) (ha : op.cpu = some a) (r : Fin 8) :
    Enc [nb i, nb (0xC0 ||| r.val * 8)] (.aluRmReg a true (.reg 0) r) := by
  refine ⟨by simp, fun junk => ?_⟩
  have hi : ∀ op : BOp, ∀ u, ((op.alu u).map (·.1)) = op.cpu.map fun a => match a with
    | .add => 0x01 | .sub => 0x29 | .and => 0x21 | .xor => 0x31 | .or => 0x09 | _ => 0x39 := by
    intro op u; cases op <;> cases u <;> rfl
  have hi := hi op u
  rw [h, ha] at hi
  cases hi
  cases op <;> cases ha <;> match r with
    | 0 | 1 | 2 | 3 | 4 | 5 | 6 | 7 => rfl

theorem alu_none {u : Bool} {op : BOp} (h : op.alu u = none) : op = .mul ∨ op = .div ∨ op = .mod ∨ op = .shl ∨ op = .shr := by
  revert h; cases op <;> cases u <;> decide

theorem exec_aluReg (K : Contract) (a : AluOp) (ha : a ≠ .cmp ∧ a ≠ .adc ∧ a ≠ .sbb) (r : Fin 8) (c : Cpu) :
    exec K (.aluRmReg a true (.reg 0) r) c =
      .next { aluFlags K a c.ax (c.reg16 r) false c with ax := aluRes a c.ax (c.reg16 r) false } := by
  obtain ⟨h1, h2, h3⟩ := ha
  cases a <;> first | exact absurd rfl h1 | exact absurd rfl h2 | exact absurd rfl h3 | rfl

theorem exec_cmpReg (K : Contract) (r : Fin 8) (c : Cpu) :
    exec K (.aluRmReg .cmp true (.reg 0) r) c = .next (aluFlags K .cmp c.ax (c.reg16 r) false c) := rfl

theorem reg16_ip (c : Cpu) (n : Word) (r : Fin 8) : reg16 { c with ip := n } r = c.reg16 r := reg_ip c r n

theorem exec_idiv (K : Contract) (c : Cpu) (n : Int) (hn : (c.dx ++ c.ax).toInt = n) (h0 : c.cx.toInt ≠ 0)
    (hr : outOfRange 16 (n.tdiv c.cx.toInt) = false) : exec K (.unary .idiv (.reg 1)) c =
      .next (noFlags { c with ax := BitVec.ofInt 16 (n.tdiv c.cx.toInt), dx := BitVec.ofInt 16 (n.tmod c.cx.toInt) }) := by
  subst hn
  show (if c.cx.toInt = 0 ∨ outOfRange 16 ((c.dx ++ c.ax).toInt.tdiv c.cx.toInt) = true then _ else _) = _
  rw [if_neg (by rw [hr]; simp [h0])]
  rfl

theorem cwd_val (a : Word) : ((if a.msb then -1 else 0 : Word) ++ a).toInt = a.toInt := by
  rw [BitVec.toInt_append]
  have h := BitVec.toInt_eq_msb_cond a
  cases hm : a.msb
  · rw [hm] at h; simp at h; simp [h]
  · rw [hm] at h
    simp only [if_true] at h ⊢
    rw [h]
    have : BitVec.toInt (-1 : Word) = -1 := by decide
    rw [this]
    simp
    omega

theorem quot_range (a b : Word) (h2 : ¬(a.toInt = -32768 ∧ b.toInt = -1)) : outOfRange 16 (a.toInt.tdiv b.toInt) = false := by
  have ha := BitVec.toInt_lt (x := a); have ha' := BitVec.le_toInt (x := a)
  unfold outOfRange
  generalize a.toInt = a at *
  generalize b.toInt = b at *
  have hle := Int.natAbs_tdiv_le_natAbs a b
  simp only [Bool.or_eq_false_iff, decide_eq_false_iff_not]
  refine ⟨by omega, fun hge => h2 ?_⟩
  have ha2 : a = -32768 := by omega
  refine ⟨ha2, ?_⟩
  subst ha2
  by_cases hb1 : b = 1
  · subst hb1; simp at hge
  · by_cases hb0 : b = 0
    · subst hb0; simp at hge
    by_cases hb2 : b = -1
    · exact hb2
    · exfalso
      have h3 : (Int.tdiv (-32768) b).natAbs = 32768 / b.natAbs := Int.natAbs_tdiv (-32768) b
      have h4 : 32768 / b.natAbs ≤ 32768 / 2 := Nat.div_le_div_left (by omega) (by decide)
      omega

theorem at_idiv (K : Contract) (c : Cpu) (h : c.cx ≠ 0) (h2 : ¬(c.ax.toInt = -32768 ∧ c.cx.toInt = -1)) : At K c (divBytes false) fun c' =>
    Upto { c with ax := BitVec.ofInt 16 (c.ax.toInt.tdiv c.cx.toInt), dx := BitVec.ofInt 16 (c.ax.toInt.tmod c.cx.toInt) } c' := by
  show At K c ([0x99] ++ [0xF7, 0xF9]) _
  refine At.append (P := fun c1 => c1 = { c with dx := if c.ax.msb then -1 else 0, ip := c.ip + 1 })
    (.one (ins := .cwd) ⟨by simp, fun _ => rfl⟩ ⟨_, rfl, rfl, rfl⟩) ?_
  rintro c1 rfl
  refine ⟨⟨rfl, rfl⟩, .one (ins := .unary .idiv (.reg 1)) ⟨by simp, fun _ => rfl⟩ ?_⟩
  have h0 : c.cx.toInt ≠ 0 := fun e => h (BitVec.eq_of_toInt_eq (by rw [e]; rfl))
  exact ⟨_, exec_idiv K _ _ (cwd_val c.ax) h0 (quot_range _ _ h2), rfl, rfl⟩

theorem enc_mul (r : Fin 8) : Enc [0xF7, nb (0xE0 ||| r.val)] (.unary .mul (.reg r)) := by
  refine ⟨by simp, fun junk => ?_⟩
  match r with
  | 0 | 1 | 2 | 3 | 4 | 5 | 6 | 7 => rfl

theorem shift_cl (K : Contract) (op : ShiftOp) (c : Cpu) (k : Nat) (hl : (Cpu.lo c.cx).toNat = k) (h : k < 16) :
    ∃ c', exec K (.shift op .cl (.reg 0)) c = .next c' ∧ c'.ip = c.ip ∧
      Upto { c with ax := if k = 0 then c.ax else (shiftRes op c.ax k).1 } c' := by
  show ∃ c', Cpu.shift K op (Cpu.lo c.cx).toNat (.reg 0) c = .next c' ∧ _
  rw [hl]
  unfold Cpu.shift
  by_cases h0 : k = 0
  · simp only [h0, if_true]
    cases K.shiftZeroKeeps
    · exact ⟨_, rfl, rfl, rfl⟩
    · exact ⟨_, rfl, rfl, .refl c⟩
  · simp only [h0, if_false]
    rw [if_neg (by omega)]
    exact ⟨_, rfl, rfl, rfl⟩

/-- Shifts by the low byte of CX. -/
theorem at_shift (K : Contract) (c : Cpu) (u : Bool) (op : BOp) (k : Nat) (hl : (Cpu.lo c.cx).toNat = k) (h0 : k < 16)
    (hop : op = .shl ∨ op = .shr) : At K c (binBytes u op 1)
      (Upto { c with ax := if op = .shl then c.ax <<< k else if u then c.ax >>> k else c.ax.sshiftRight k }) := by
  rcases hop with rfl | rfl
  · obtain ⟨c', e, hi, hu⟩ := shift_cl K .shl { c with ip := c.ip + 2 } k hl h0
    refine .one (bs := [0xD3, 0xE0]) (ins := .shift .shl .cl (.reg 0)) ⟨by simp, fun _ => rfl⟩ ⟨c', e, hi, ?_⟩
    have : (if k = 0 then c.ax else (shiftRes .shl c.ax k).1) = c.ax <<< k := by
      by_cases hk : k = 0
      · rw [if_pos hk, hk]; simp
      · rw [if_neg hk]; rfl
    simp only [this] at hu
    exact hu
  · cases u
    · obtain ⟨c', e, hi, hu⟩ := shift_cl K .sar { c with ip := c.ip + 2 } k hl h0
      refine .one (bs := [0xD3, 0xF8]) (ins := .shift .sar .cl (.reg 0)) ⟨by simp, fun _ => rfl⟩ ⟨c', e, hi, ?_⟩
      have : (if k = 0 then c.ax else (shiftRes .sar c.ax k).1) = c.ax.sshiftRight k := by
        by_cases hk : k = 0
        · rw [if_pos hk, hk]; simp
        · rw [if_neg hk]; rfl
      simp only [this] at hu
      exact hu
    · obtain ⟨c', e, hi, hu⟩ := shift_cl K .shr { c with ip := c.ip + 2 } k hl h0
      refine .one (bs := [0xD3, 0xE8]) (ins := .shift .shr .cl (.reg 0)) ⟨by simp, fun _ => rfl⟩ ⟨c', e, hi, ?_⟩
      have : (if k = 0 then c.ax else (shiftRes .shr c.ax k).1) = c.ax >>> k := by
        by_cases hk : k = 0
        · rw [if_pos hk, hk]; simp
        · rw [if_neg hk]; rfl
      simp only [this] at hu
      exact hu

theorem lo_small (w : Word) (h : w.toNat < 16) : (Cpu.lo w).toNat = w.toNat := by
  rw [Cpu.lo, BitVec.toNat_setWidth]; omega

/-- The code of an operator whose value is no comparison. -/
theorem at_bin (K : Contract) (c : Cpu) (u : Bool) (op : BOp) (r : Fin 8) (v : Word) (hr : r = 1 ∨ op = .mul ∨ (op.alu u).isSome)
    (hc : op.cmp u c.ax (c.reg16 r) = none) (h : op.sem u c.ax (c.reg16 r) = some v) :
    At K c (binBytes u op r.val) fun c' => ∃ dx, Upto { c with ax := v, dx := dx } c' := by
  unfold binBytes
  cases ha : op.alu u with
  | some p =>
    obtain ⟨i, k⟩ := p
    have hx : ∃ a, op.cpu = some a ∧ (a ≠ .cmp ∧ a ≠ .adc ∧ a ≠ .sbb) ∧ aluRes a c.ax (c.reg16 r) false = v := by
      cases op <;> first | (cases hc; done) | skip
      all_goals first | (cases h; exact ⟨_, rfl, by decide, rfl⟩) | (cases u <;> cases ha)
    obtain ⟨a, hcpu, hne, hres⟩ := hx
    refine .one (enc_alu u op a i k ha hcpu r) ⟨_, exec_aluReg K a hne r _, rfl, c.dx, ?_⟩
    rw [reg16_ip, hres]
    rfl
  | none =>
    rw [ha] at hr
    rcases alu_none ha with rfl | rfl | rfl | rfl | rfl
    · cases h
      refine .one (enc_mul r) ⟨noFlags { c with ip := _, ax := c.ax * c.reg16 r, dx := K.mulHi c.ax (c.reg16 r) }, ?_, rfl, K.mulHi c.ax (c.reg16 r), rfl⟩
      show Out.next (noFlags { c with ip := _, ax := c.ax * reg16 { c with ip := _ } r, dx := K.mulHi c.ax (reg16 { c with ip := _ } r) }) = _
      rw [reg16_ip]
    all_goals obtain rfl : r = 1 := by simpa using hr
    · simp only [BOp.sem, reg16] at h
      have h0 : ¬ c.cx = 0 := fun e => by simp [e] at h
      simp only [h0, if_false] at h
      cases u
      · simp only [Bool.false_eq_true, if_false] at h
        have h2 : ¬ (c.ax.toInt = -32768 ∧ c.cx.toInt = -1) := fun e => by simp [e] at h
        simp only [h2, if_false] at h
        cases h
        exact (at_idiv K c h0 h2).mono fun _ h => ⟨_, h⟩
      · cases h
        exact (at_div_unsigned K c h0).mono fun _ h => ⟨_, h⟩
    · have hx : ∀ d c', Upto { c with ax := d, dx := v } c' → (c'.mem = c.mem ∧ c'.cs = c.cs) ∧
          At K c' [0x92] fun c' => ∃ dx, Upto { c with ax := v, dx := dx } c' := by
        intro d c' h'
        refine ⟨⟨h'.mem, h'.cs⟩, .one (ins := .xchgAx 2) ⟨by simp, fun _ => rfl⟩ ⟨_, rfl, rfl, d, ?_⟩⟩
        rw [h']; rfl
      simp only [BOp.sem, reg16] at h
      have h0 : ¬ c.cx = 0 := fun e => by simp [e] at h
      simp only [h0, if_false] at h
      cases u
      · simp only [Bool.false_eq_true, if_false] at h
        have h2 : ¬ (c.ax.toInt = -32768 ∧ c.cx.toInt = -1) := fun e => by simp [e] at h
        simp only [h2, if_false] at h
        cases h
        exact (at_idiv K c h0 h2).append fun c' h' => hx _ c' h'
      · cases h
        exact (at_div_unsigned K c h0).append fun c' h' => hx _ c' h'
    · simp only [BOp.sem, reg16] at h
      have h0 : c.cx.toNat < 16 := Decidable.byContradiction fun e => by simp [e] at h
      simp only [h0, if_true] at h
      cases h
      exact (at_shift K c u .shl _ (lo_small _ h0) h0 (.inl rfl)).mono fun _ h => ⟨c.dx, h⟩
    · simp only [BOp.sem, reg16] at h
      have h0 : c.cx.toNat < 16 := Decidable.byContradiction fun e => by simp [e] at h
      simp only [h0, if_true] at h
      cases h
      exact (at_shift K c u .shr _ (lo_small _ h0) h0 (.inr rfl)).mono fun _ h => ⟨c.dx, h⟩

theorem cmp_flags (K : Contract) (a b : Word) (c : Cpu) : Cmp a b (aluFlags K .cmp a b false c) := by
  refine ⟨?_, ?_, ?_, ?_⟩ <;> simp [aluFlags, aluRes, aluCF, aluOF, Flag.of]

/-- The code of a comparison sets the flags that its condition code tests. -/
theorem at_cmp (K : Contract) (c : Cpu) (u : Bool) (op : BOp) (r : Fin 8) (v : Bool) (h : op.cmp u c.ax (c.reg16 r) = some v) :
    At K c (binBytes u op r.val) fun c' => Upto c c' ∧ c'.cond (Fin.ofNat 16 (op.cc u)) = some v := by
  have hx : op.cpu = some .cmp ∧ ∃ k, op.alu u = some (0x39, k) := by
    cases op <;> first | (cases h; done) | exact ⟨rfl, _, rfl⟩
  obtain ⟨hcpu, k, ha⟩ := hx
  unfold binBytes
  rw [ha]
  refine .one (enc_alu u op .cmp _ k ha hcpu r) ⟨_, exec_cmpReg K r _, rfl, rfl, ?_⟩
  refine (cmp_cond (a := c.ax) (b := c.reg16 r) ?_ u op v h).2
  rw [reg16_ip]
  exact cmp_flags ..

/-! ## Writing, as a function -/

/-- The state after `bs` has been written. -/
def put (s : S) : List Byte → S
  | [] => s
  | b :: bs => put { s with out := s.out.set (s.code - codeStart) b, code := s.code + 1 } bs

theorem put_append (as bs : List Byte) (s : S) : put s (as ++ bs) = put (put s as) bs := by
  induction as generalizing s with
  | nil => rfl
  | cons a as ih => exact ih _

theorem put_code (bs : List Byte) (s : S) : (put s bs).code = s.code + bs.length := by
  induction bs generalizing s with
  | nil => rfl
  | cons a as ih => rw [put, ih]; simp only [List.length_cons]; omega

theorem Room.put {s : S} {as bs : List Byte} (h : Room s (as ++ bs).length) : Room s as.length ∧ Room (put s as) bs.length := by
  unfold Room at *
  rw [put_code]
  rw [List.length_append] at h
  generalize codeStart = a, outputMax = b at *
  omega

theorem raw_put (bs : List Byte) (s : S) (h : Room s bs.length) : raw bs s = .ok () (put s bs) := by
  induction bs generalizing s with
  | nil => rfl
  | cons b bs ih =>
    obtain ⟨h1, h2⟩ := Room.put (as := [b]) (bs := bs) h
    refine run_getS (run_ub ?_ (run_modS (ih _ h2)))
    unfold Room at h1
    exact decide_eq_true (by simp only [List.length_cons, List.length_nil] at h1; generalize codeStart = a, outputMax = b at *; omega)

theorem put_wrote (bs : List Byte) (s : S) (h : Room s bs.length) : Wrote s bs (put s bs) := by
  obtain ⟨s', e, hw⟩ := raw_spec bs s h
  rw [raw_put bs s h] at e
  cases e
  exact hw

theorem put_type (bs : List Byte) (s : S) (t : Nat) (v : Int) : { put s bs with type := t, val := v } = put { s with type := t, val := v } bs := by
  induction bs generalizing s with
  | nil => rfl
  | cons b bs ih => exact ih _

theorem Live.put {s : S} (h : Live s) (bs : List Byte) : Live (put s bs) := by
  induction bs generalizing s with
  | nil => exact h
  | cons b bs ih => exact ih ⟨h.dead, h.spAdj, h.push⟩

theorem Live.out_put {s : S} (h : Live s) {bs : List Byte} (hr : Room s bs.length) : Scc.output bs s = .ok () (SccCode.put s bs) :=
  (h.output bs).trans (raw_put bs s hr)

/-- `GetVal` after a comparison. -/
theorem getVal_bool (s : S) (hs : Live s) (ht : s.type = vtBool) (cc : Nat) (hv : s.val = cc) (hr : Room s (boolBytes cc).length) :
    getVal s = .ok () (put { s with type := vtInt, val := s.val } (boolBytes cc)) := by
  obtain ⟨h1, h2⟩ := hr.put
  refine run_getS (run_pos ht ?_)
  refine run_bind (hs.out_put h1) (run_bind (a := ()) (s1 := put s (boolBytes cc)) ?_ ?_)
  · rw [hv, boolBytes, put_append]
    exact (hs.put _).out_put h2
  · exact congrArg (Res.ok ()) (put_type ..)

/-- `GetVal` has nothing to do. -/
theorem getVal_int (s : S) (ht : s.type = vtInt) : getVal s = .ok () s := by
  refine run_getS (run_neg (by rw [ht]; decide) (run_bind (a := ()) (s1 := s) ?_ ?_))
  · exact run_getS (run_pos (by rw [ht]; decide) rfl)
  · exact run_getS (run_neg (by rw [ht]; decide) rfl)

theorem put_proj (bs : List Byte) (s : S) : (put s bs).type = s.type ∧ (put s bs).val = s.val ∧ (put s bs).isUnsigned = s.isUnsigned := by
  induction bs generalizing s with
  | nil => exact ⟨rfl, rfl, rfl⟩
  | cons b bs ih => exact ih _

/-- All bytes of an operator with its value in AX. -/
def valBytes (u : Bool) (op : BOp) (r : Nat) : List Byte := binBytes u op r ++ if op.cc u = 0 then [] else boolBytes (op.cc u)

theorem binVal_put (op : BOp) (r : Nat) (s : S) (hs : Live s) (hr : r = 1 ∨ op = .mul ∨ (op.alu s.isUnsigned).isSome) (ht : s.type = vtInt)
    (hroom : Room s (valBytes s.isUnsigned op r).length) :
    ∃ v, (doBinOp op.tok r >>= fun _ => getVal) s = .ok () (put { s with type := vtInt, val := v } (valBytes s.isUnsigned op r)) := by
  unfold valBytes at *
  obtain ⟨h1, h2⟩ := hroom.put
  have e := binOp_raw op r s hs hr
  have hp := put_proj (binBytes s.isUnsigned op r) s
  have e0 : put s (binBytes s.isUnsigned op r) = put { s with type := vtInt, val := s.val } (binBytes s.isUnsigned op r) := by
    rw [← ht]
  rw [bind_run, raw_put _ _ h1] at e
  by_cases hc : op.cc s.isUnsigned = 0
  · rw [hc] at e
    rw [if_pos hc, List.append_nil]
    refine ⟨s.val, run_bind e ?_⟩
    rw [← e0]
    exact getVal_int _ (hp.1.trans ht)
  · rw [if_neg hc] at h2 ⊢
    rw [show finishOp (op.cc s.isUnsigned) = modS fun z => { z with type := vtBool, val := (op.cc s.isUnsigned : Int) } from if_neg hc] at e
    refine ⟨(op.cc s.isUnsigned : Int), run_bind e ((getVal_bool { put s _ with type := vtBool, val := (op.cc s.isUnsigned : Int) } ?_ rfl _ rfl ?_).trans ?_)⟩
    · exact ⟨(hs.put _).dead, (hs.put _).spAdj, (hs.put _).push⟩
    · exact h2
    · rw [put_append]
      exact congrArg (fun z => Res.ok () (put z _)) (put_type ..)

theorem at_val (K : Contract) (c : Cpu) (u : Bool) (op : BOp) (r : Fin 8) (v : Word) (hr : r = 1 ∨ op = .mul ∨ (op.alu u).isSome)
    (h : op.sem u c.ax (c.reg16 r) = some v) :
    At K c (valBytes u op r.val) fun c' => ∃ dx, Upto { c with ax := v, dx := dx } c' := by
  unfold valBytes
  cases hc : op.cmp u c.ax (c.reg16 r) with
  | none =>
    have : op.cc u = 0 := by
      cases op <;> first | (cases hc; done) | (cases u <;> rfl)
    rw [if_pos this, List.append_nil]
    exact at_bin K c u op r v hr hc h
  | some b =>
    have hcc : op.cc u ≠ 0 ∧ op.cc u < 16 := by
      cases op <;> first | (cases hc; done) | (cases u <;> decide)
    have hv : v = b2w b := by
      cases op <;> first | (cases hc; done) | exact (Option.some.inj ((congrArg (Option.map b2w) hc).symm.trans h)).symm
    rw [if_neg hcc.1]
    refine (at_cmp K c u op r b hc).append fun c' ⟨hu, hcond⟩ => ⟨⟨hu.mem, hu.cs⟩, ?_⟩
    have := at_bool K c' (Fin.ofNat 16 (op.cc u)) b hcond
    rw [show (Fin.ofNat 16 (op.cc u)).val = op.cc u from Nat.mod_eq_of_lt hcc.2] at this
    exact this.mono fun c2 h2 => ⟨c.dx, by rw [h2, hu, hv]; rfl⟩

end SccCode

namespace Props
open SccCode

/-- C39: for each binary operator, with the left operand in AX and the right one in CX, `DoBinOp` (and `GetVal` for comparisons, which
leave their value in the flags) writes code that computes the value the operator has in C on 16-bit words - wrapping around, signed or
unsigned as the compiler decided, 0 or 1 for comparisons - in AX whenever that value is defined.  Of the other registers only DX and
the flags may change, and no memory does.  The compiler then holds an `int` in AX. -/
theorem C39_binop (op : BOp) (s : Scc.S) (hs : Live s) (ht : s.type = Scc.vtInt) :
    ∃ bs, (Room s bs.length → ∃ v s', (Scc.doBinOp op.tok Scc.rCX >>= fun _ => Scc.getVal) s = .ok () s' ∧
        Wrote { s with type := Scc.vtInt, val := v } bs s') ∧
      ∀ (K : I86.Contract) (c : I86.Cpu) (v : I86.Word), op.sem s.isUnsigned c.ax c.cx = some v →
        At K c bs fun c' => ∃ dx, Upto { c with ax := v, dx := dx } c' := by
  refine ⟨valBytes s.isUnsigned op 1, fun hr => ?_, fun K c v h => at_val K c _ op 1 v (.inl rfl) h⟩
  obtain ⟨v, e⟩ := binVal_put op 1 s hs (.inl rfl) ht hr
  exact ⟨v, _, e, put_wrote _ _ hr⟩

/-- A state for the theorem, and values of operators. -/
example : ∃ s, Live s ∧ Room s 100 ∧ s.type = Scc.vtInt ∧ s.isUnsigned = true :=
  ⟨{ Scc.init [] with type := Scc.vtInt, isUnsigned := true }, ⟨rfl, rfl, rfl⟩, ⟨by decide, by decide⟩, rfl, rfl⟩
example : BOp.div.sem false (-7) 2 = some (-3) ∧ BOp.div.sem true (-7) 2 = some 0x7FFC ∧ BOp.gt.sem false 3 (-3) = some 1 ∧
    BOp.div.sem false 1 0 = none ∧ BOp.sub.sem false 1 3 = some (-2) := by decide
example : valBytes false .gt 1 = [0x39, 0xC8, 0xB8, 0, 0, 0x7E, 1, 0x40] := by decide +kernel

end Props
