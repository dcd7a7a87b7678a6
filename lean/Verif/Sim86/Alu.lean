import Verif.Sim86.Model
import Verif.I86.Spec
/-!
# Carry, overflow, sign and zero of the simulator's ALU (helper lemmas)
-/
namespace Sim86
open I86

theorem and_twoPow_ne_zero (x : W) (i : Nat) (hi : i < 32) :
    (x &&& BitVec.twoPow 32 i ≠ 0) ↔ x.getLsbD i = true := by
  rw [BitVec.and_twoPow]
  split
  · next h => simp [h]; intro h0
              have := congrArg (fun v => v.getLsbD i) h0
              simp [hi] at this
  · next h => simp [h]

/-- The carry vector of an addition holds the carry out of each bit. -/
theorem addCarry_bit (l r : W) (c : Bool) (i : Nat) (hi : i < 32) :
    ((l &&& r) ||| ((l ||| r) &&& ~~~(l + r + BitVec.setWidth 32 (BitVec.ofBool c)))).getLsbD i
      = BitVec.carry (i + 1) l r c := by
  rw [BitVec.carry_succ]
  simp only [BitVec.getLsbD_or, BitVec.getLsbD_and, BitVec.getLsbD_not, hi, decide_true, Bool.true_and,
    BitVec.getLsbD_add_add_bool hi]
  cases l.getLsbD i <;> cases r.getLsbD i <;> cases BitVec.carry i l r c <;> rfl

theorem sub_eq_add_not (l r : W) (c : Bool) :
    l - r - BitVec.setWidth 32 (BitVec.ofBool c) = l + ~~~r + BitVec.setWidth 32 (BitVec.ofBool (!c)) := by
  rw [BitVec.sub_eq_add_neg, BitVec.sub_eq_add_neg, BitVec.neg_eq_not_add]
  cases c <;> simp [BitVec.add_assoc] 

/-- The carry vector of a subtraction holds the borrow out of each bit. -/
theorem subCarry_bit (l r : W) (c : Bool) (i : Nat) (hi : i < 32) :
    ((~~~l &&& r) ||| (~~~(l ^^^ r) &&& (l - r - BitVec.setWidth 32 (BitVec.ofBool c)))).getLsbD i
      = !BitVec.carry (i + 1) l (~~~r) (!c) := by
  rw [BitVec.carry_succ, sub_eq_add_not]
  simp only [BitVec.getLsbD_or, BitVec.getLsbD_and, BitVec.getLsbD_not, BitVec.getLsbD_xor, hi, decide_true, Bool.true_and,
    BitVec.getLsbD_add_add_bool hi]
  cases l.getLsbD i <;> cases r.getLsbD i <;> cases BitVec.carry i l (~~~r) (!c) <;> rfl


/-! ## Width 16 -/

section Width16
variable (l r : W) (c : Bool)

theorem addCF_16 : BitVec.carry 16 l r c
    = decide (2 ^ 16 ≤ (l.setWidth 16).toNat + (r.setWidth 16).toNat + c.toNat) := by
  simp only [BitVec.carry, BitVec.toNat_setWidth, ge_iff_le]

theorem subCF_16 : (!BitVec.carry 16 l (~~~r) (!c))
    = decide ((l.setWidth 16).toNat < (r.setWidth 16).toNat + c.toNat) := by
  simp only [BitVec.carry, BitVec.toNat_setWidth, ge_iff_le, BitVec.toNat_not]
  rw [Bool.eq_iff_iff]
  have := r.isLt
  cases c <;> simp <;> omega

theorem addOF_16 : (BitVec.carry 15 l r c ^^ BitVec.carry 16 l r c)
    = outOfRange 16 ((l.setWidth 16).toInt + (r.setWidth 16).toInt + c.toNat) := by
  simp only [BitVec.carry, outOfRange, BitVec.toInt_eq_toNat_cond, BitVec.toNat_setWidth, ge_iff_le]
  rw [Bool.eq_iff_iff]
  cases c <;> simp <;> omega

theorem subOF_16 : ((!BitVec.carry 15 l (~~~r) (!c)) ^^ (!BitVec.carry 16 l (~~~r) (!c)))
    = outOfRange 16 ((l.setWidth 16).toInt - (r.setWidth 16).toInt - c.toNat) := by
  simp only [BitVec.carry, outOfRange, BitVec.toInt_eq_toNat_cond, BitVec.toNat_setWidth, ge_iff_le, BitVec.toNat_not]
  rw [Bool.eq_iff_iff]
  have := r.isLt
  cases c <;> simp <;> omega

end Width16

/-! ## Width 8 -/

section Width8
variable (l r : W) (c : Bool)

theorem addCF_8 : BitVec.carry 8 l r c
    = decide (2 ^ 8 ≤ (l.setWidth 8).toNat + (r.setWidth 8).toNat + c.toNat) := by
  simp only [BitVec.carry, BitVec.toNat_setWidth, ge_iff_le]

theorem subCF_8 : (!BitVec.carry 8 l (~~~r) (!c))
    = decide ((l.setWidth 8).toNat < (r.setWidth 8).toNat + c.toNat) := by
  simp only [BitVec.carry, BitVec.toNat_setWidth, ge_iff_le, BitVec.toNat_not]
  rw [Bool.eq_iff_iff]
  have := r.isLt
  cases c <;> simp <;> omega

theorem addOF_8 : (BitVec.carry 7 l r c ^^ BitVec.carry 8 l r c)
    = outOfRange 8 ((l.setWidth 8).toInt + (r.setWidth 8).toInt + c.toNat) := by
  simp only [BitVec.carry, outOfRange, BitVec.toInt_eq_toNat_cond, BitVec.toNat_setWidth, ge_iff_le]
  rw [Bool.eq_iff_iff]
  cases c <;> simp <;> omega

theorem subOF_8 : ((!BitVec.carry 7 l (~~~r) (!c)) ^^ (!BitVec.carry 8 l (~~~r) (!c)))
    = outOfRange 8 ((l.setWidth 8).toInt - (r.setWidth 8).toInt - c.toNat) := by
  simp only [BitVec.carry, outOfRange, BitVec.toInt_eq_toNat_cond, BitVec.toNat_setWidth, ge_iff_le, BitVec.toNat_not]
  rw [Bool.eq_iff_iff]
  have := r.isLt
  cases c <;> simp <;> omega

end Width8

/-! ## The flags word -/

/-- The simulator's flags as booleans. -/
def cfOf (f : W) : Bool := f &&& FC ≠ 0
def zfOf (f : W) : Bool := f &&& FZ ≠ 0
def sfOf (f : W) : Bool := f &&& FS ≠ 0
def ofOf (f : W) : Bool := f &&& FO ≠ 0

theorem flags_and_FC (f : W) : f &&& FC = BitVec.setWidth 32 (BitVec.ofBool (cfOf f)) := by
  have h : f &&& FC = f &&& BitVec.twoPow 32 0 := rfl
  rw [cfOf, h, BitVec.and_twoPow]
  split <;> rfl

/-- A flags word put together from four conditions. -/
def mkFlags (c z s o : Bool) : W :=
  (if s then FS else 0) ||| (if z then FZ else 0) ||| (if c then FC else 0) ||| (if o then FO else 0)

theorem cfOf_mk (c z s o : Bool) : cfOf (mkFlags c z s o) = c := by cases c <;> cases z <;> cases s <;> cases o <;> rfl
theorem zfOf_mk (c z s o : Bool) : zfOf (mkFlags c z s o) = z := by cases c <;> cases z <;> cases s <;> cases o <;> rfl
theorem sfOf_mk (c z s o : Bool) : sfOf (mkFlags c z s o) = s := by cases c <;> cases z <;> cases s <;> cases o <;> rfl
theorem ofOf_mk (c z s o : Bool) : ofOf (mkFlags c z s o) = o := by cases c <;> cases z <;> cases s <;> cases o <;> rfl

theorem opFlags_eq (d : Bool) (res carry : W) :
    opFlags d res carry
      = mkFlags (carry.getLsbD (if d then 15 else 7)) (decide (TRIM res = 0)) (res.getLsbD (if d then 15 else 7))
          (carry.getLsbD (if d then 14 else 6) ^^ carry.getLsbD (if d then 15 else 7)) := by
  have h16 : (0x8000 : W) = BitVec.twoPow 32 15 := rfl
  have h8 : (0x80 : W) = BitVec.twoPow 32 7 := rfl
  cases d
  · simp only [opFlags, mkFlags, h8, and_twoPow_ne_zero _ 7 (by omega), Bool.false_eq_true, if_false, decide_eq_true_eq]
    simp
  · simp only [opFlags, mkFlags, h16, and_twoPow_ne_zero _ 15 (by omega), if_true, decide_eq_true_eq]
    simp

theorem trim_eq_zero (x : W) : TRIM x = 0 ↔ x.setWidth 16 = 0 := by
  have h : TRIM x = (x.setWidth 16).setWidth 32 := by
    apply BitVec.eq_of_toNat_eq
    have : (65535 : Nat) = 2 ^ 16 - 1 := rfl
    simp only [TRIM, BitVec.toNat_and, BitVec.toNat_setWidth]
    show x.toNat &&& 65535 = _
    rw [this, Nat.and_two_pow_sub_one_eq_mod]
    omega
  rw [h]
  constructor
  · intro h0
    have := congrArg BitVec.toNat h0
    apply BitVec.eq_of_toNat_eq
    have h1 := (x.setWidth 16).isLt
    simp only [BitVec.toNat_setWidth] at this ⊢
    have h2 : x.toNat % 2 ^ 16 < 2 ^ 16 := Nat.mod_lt _ (by decide)
    simp at this ⊢
    omega
  · intro h0; rw [h0]; rfl

/-- The specification's operation for the code in bits 3-5 of the opcode. -/
def opOf (op : Fin 8) : AluOp := AluOp.ofCode op.val

theorem setWidth_ofBool (k : Nat) (c : Bool) :
    BitVec.setWidth k (BitVec.setWidth 32 (BitVec.ofBool c)) = BitVec.ofNat k c.toNat := by
  apply BitVec.eq_of_toNat_eq
  cases c
  · simp
  · simp only [BitVec.toNat_setWidth, BitVec.ofBool_true, BitVec.toNat_ofNat, Bool.toNat_true]
    rfl

theorem setWidth_sub' (k : Nat) (hk : k ≤ 32) (l r : W) :
    (l - r).setWidth k = l.setWidth k - r.setWidth k := by
  rw [BitVec.sub_eq_add_neg, BitVec.setWidth_add _ _ hk, BitVec.setWidth_neg_of_le hk, BitVec.sub_eq_add_neg]

/-- The result of `DoOp`, at any width: low bits of the result depend on low bits of the operands. -/
theorem opRes_fst (k : Nat) (hk : k ≤ 32) (op : Fin 8) (f l r : W) :
    (opRes op f l r).1.setWidth k = aluRes (opOf op) (l.setWidth k) (r.setWidth k) (cfOf f) := by
  match op with
  | 0 => exact BitVec.setWidth_add _ _ hk
  | 1 => exact BitVec.setWidth_or
  | 2 =>
    show (l + r + (f &&& FC)).setWidth k = l.setWidth k + r.setWidth k + BitVec.ofNat k (cfOf f).toNat
    rw [flags_and_FC, BitVec.setWidth_add _ _ hk, BitVec.setWidth_add _ _ hk, setWidth_ofBool]
  | 3 =>
    show (l - r - (f &&& FC)).setWidth k = l.setWidth k - r.setWidth k - BitVec.ofNat k (cfOf f).toNat
    rw [flags_and_FC, setWidth_sub' _ hk, setWidth_sub' _ hk, setWidth_ofBool]
  | 4 => exact BitVec.setWidth_and
  | 5 => exact setWidth_sub' _ hk _ _
  | 6 => exact BitVec.setWidth_xor
  | 7 => exact setWidth_sub' _ hk _ _

/-- Logical operations leave the carry vector empty; the others hold carries/borrows. -/
theorem opRes_snd (op : Fin 8) (f l r : W) (i : Nat) (hi : i < 32) :
    (opRes op f l r).2.getLsbD i =
      match op with
      | 0 => BitVec.carry (i + 1) l r false
      | 2 => BitVec.carry (i + 1) l r (cfOf f)
      | 3 => !BitVec.carry (i + 1) l (~~~r) (!cfOf f)
      | 5 | 7 => !BitVec.carry (i + 1) l (~~~r) true
      | _ => false := by
  have h0 (x : W) : x + BitVec.setWidth 32 (BitVec.ofBool false) = x := by simp
  have h1 (x : W) : x - BitVec.setWidth 32 (BitVec.ofBool false) = x := by simp
  match op with
  | 0 => have := addCarry_bit l r false i hi; rw [h0] at this; exact this
  | 1 => simp [opRes]
  | 2 => simp only [opRes, flags_and_FC]; exact addCarry_bit l r _ i hi
  | 3 => simp only [opRes, flags_and_FC]; exact subCarry_bit l r _ i hi
  | 4 => simp [opRes]
  | 5 => have := subCarry_bit l r false i hi; rw [h1] at this; exact this
  | 6 => simp [opRes]
  | 7 => have := subCarry_bit l r false i hi; rw [h1] at this; exact this

theorem msb_setWidth (k : Nat) (hk : k ≤ 32) (h0 : 0 < k) (x : W) : (x.setWidth k).msb = x.getLsbD (k - 1) := by
  rw [BitVec.msb_eq_getLsbD_last, BitVec.getLsbD_setWidth]
  have : k - 1 < k := by omega
  simp [this]

/-- Flags of a 16-bit `DoOp`. -/
theorem opFlags_16 (op : Fin 8) (f l r : W) :
    opFlags true (opRes op f l r).1 (opRes op f l r).2
      = mkFlags (aluCF (opOf op) (l.setWidth 16) (r.setWidth 16) (cfOf f))
          (aluRes (opOf op) (l.setWidth 16) (r.setWidth 16) (cfOf f) == 0)
          (aluRes (opOf op) (l.setWidth 16) (r.setWidth 16) (cfOf f)).msb
          (aluOF (opOf op) (l.setWidth 16) (r.setWidth 16) (cfOf f)) := by
  rw [opFlags_eq, ← opRes_fst 16 (by omega) op f l r, msb_setWidth 16 (by omega) (by omega)]
  simp only [if_true]
  have hz : decide (TRIM (opRes op f l r).1 = 0) = ((opRes op f l r).1.setWidth 16 == 0) := by
    rw [Bool.eq_iff_iff]; simp only [decide_eq_true_eq, beq_iff_eq]; exact trim_eq_zero _
  rw [hz]
  have hcf : (opRes op f l r).2.getLsbD 15 = aluCF (opOf op) (l.setWidth 16) (r.setWidth 16) (cfOf f) := by
    rw [opRes_snd _ _ _ _ _ (by omega)]
    match op with
    | 0 => exact addCF_16 l r false
    | 1 => rfl
    | 2 => exact addCF_16 l r _
    | 3 => exact subCF_16 l r _
    | 4 => rfl
    | 5 => exact subCF_16 l r false
    | 6 => rfl
    | 7 => exact subCF_16 l r false
  have hof : ((opRes op f l r).2.getLsbD 14 ^^ (opRes op f l r).2.getLsbD 15)
      = aluOF (opOf op) (l.setWidth 16) (r.setWidth 16) (cfOf f) := by
    rw [opRes_snd _ _ _ _ _ (by omega), opRes_snd _ _ _ _ _ (by omega)]
    match op with
    | 0 => exact (addOF_16 l r false).trans (congrArg (outOfRange 16) (Int.add_zero _))
    | 1 => rfl
    | 2 => exact addOF_16 l r _
    | 3 => exact subOF_16 l r _
    | 4 => rfl
    | 5 => exact (subOF_16 l r false).trans (congrArg (outOfRange 16) (Int.sub_zero _))
    | 6 => rfl
    | 7 => exact (subOF_16 l r false).trans (congrArg (outOfRange 16) (Int.sub_zero _))
  rw [hof, hcf]

theorem toNat_and_ff (x : W) : (x &&& 0xff).toNat = x.toNat % 256 := by
  rw [BitVec.toNat_and]
  exact Nat.and_two_pow_sub_one_eq_mod x.toNat 8

theorem setWidth_and_ff (x : W) : (x &&& 0xff).setWidth 8 = x.setWidth 8 := by
  apply BitVec.eq_of_toNat_eq
  rw [BitVec.toNat_setWidth, toNat_and_ff, BitVec.toNat_setWidth]
  omega

/-- Flags of an 8-bit `DoOp`: all but ZF are those of the byte operation; ZF tests 16 bits of the result. -/
theorem opFlags_8 (op : Fin 8) (f l r : W) :
    opFlags false (opRes op f (l &&& 0xff) (r &&& 0xff)).1 (opRes op f (l &&& 0xff) (r &&& 0xff)).2
      = mkFlags (aluCF (opOf op) (l.setWidth 8) (r.setWidth 8) (cfOf f))
          ((opRes op f (l &&& 0xff) (r &&& 0xff)).1.setWidth 16 == 0)
          (aluRes (opOf op) (l.setWidth 8) (r.setWidth 8) (cfOf f)).msb
          (aluOF (opOf op) (l.setWidth 8) (r.setWidth 8) (cfOf f)) := by
  have hm := setWidth_and_ff
  have hfst := opRes_fst 8 (by omega) op f (l &&& 0xff) (r &&& 0xff)
  rw [hm, hm] at hfst
  rw [opFlags_eq, ← hfst, msb_setWidth 8 (by omega) (by omega)]
  simp only [Bool.false_eq_true, if_false]
  have hz : decide (TRIM (opRes op f (l &&& 0xff) (r &&& 0xff)).1 = 0) = ((opRes op f (l &&& 0xff) (r &&& 0xff)).1.setWidth 16 == 0) := by
    rw [Bool.eq_iff_iff]; simp only [decide_eq_true_eq, beq_iff_eq]; exact trim_eq_zero _
  rw [hz]
  have hcf : (opRes op f (l &&& 0xff) (r &&& 0xff)).2.getLsbD 7 = aluCF (opOf op) (l.setWidth 8) (r.setWidth 8) (cfOf f) := by
    rw [opRes_snd _ _ _ _ _ (by omega), ← hm l, ← hm r]
    match op with
    | 0 => exact addCF_8 _ _ false
    | 1 => rfl
    | 2 => exact addCF_8 _ _ _
    | 3 => exact subCF_8 _ _ _
    | 4 => rfl
    | 5 => exact subCF_8 _ _ false
    | 6 => rfl
    | 7 => exact subCF_8 _ _ false
  have hof : ((opRes op f (l &&& 0xff) (r &&& 0xff)).2.getLsbD 6 ^^ (opRes op f (l &&& 0xff) (r &&& 0xff)).2.getLsbD 7)
      = aluOF (opOf op) (l.setWidth 8) (r.setWidth 8) (cfOf f) := by
    rw [opRes_snd _ _ _ _ _ (by omega), opRes_snd _ _ _ _ _ (by omega), ← hm l, ← hm r]
    match op with
    | 0 => exact (addOF_8 _ _ false).trans (congrArg (outOfRange 8) (Int.add_zero _))
    | 1 => rfl
    | 2 => exact addOF_8 _ _ _
    | 3 => exact subOF_8 _ _ _
    | 4 => rfl
    | 5 => exact (subOF_8 _ _ false).trans (congrArg (outOfRange 8) (Int.sub_zero _))
    | 6 => rfl
    | 7 => exact (subOF_8 _ _ false).trans (congrArg (outOfRange 8) (Int.sub_zero _))
  rw [hof, hcf]

end Sim86
