import Verif.Props.SccConst
/-!
# Constant folding in `scc.c` (C41)
-/
namespace SccCode
open Prog Scc I86
open I86.Cpu hiding lo hi rd

/-- An `int` of the compiled program. -/
def In16 (v : Int) : Prop := -32768 ≤ v ∧ v < 32768

theorem toInt_of16 {v : Int} (h : In16 v) : (BitVec.ofInt 16 v).toInt = v := by
  unfold In16 at h; rw [BitVec.toInt_ofInt]; simp only [Int.bmod]; omega

theorem toNat_small {v : Int} (h : In16 v) (h' : (BitVec.ofInt 16 v).toNat < 16) : 0 ≤ v ∧ v < 16 ∧ (BitVec.ofInt 16 v).toNat = v.toNat := by
  unfold In16 at h; rw [BitVec.toNat_ofInt] at *; omega

theorem ofInt_toInt32 (x : BitVec 32) : BitVec.ofInt 16 x.toInt = x.setWidth 16 := by
  apply BitVec.eq_of_toNat_eq
  rw [BitVec.toNat_ofInt, BitVec.toNat_setWidth, BitVec.toInt_eq_toNat_cond]
  split <;> omega

theorem setWidth_ofInt (v : Int) : (BitVec.ofInt 32 v).setWidth 16 = BitVec.ofInt 16 v := by
  apply BitVec.eq_of_toNat_eq
  rw [BitVec.toNat_ofInt, BitVec.toNat_setWidth, BitVec.toNat_ofInt]
  omega

theorem intResult_ok {v w : Int} (h : intResult v = .ok w) : w = v := by
  unfold intResult at h; split at h <;> cases h; rfl

/-- Folding agrees with the value of the operator on 16-bit words. -/
theorem fold_sem (op : BOp) (l r v : Int) (hl : In16 l) (hr : In16 r) (h : constBinOp op.tok l r = .ok v) (w : Word)
    (hw : op.sem false (BitVec.ofInt 16 l) (BitVec.ofInt 16 r) = some w) : BitVec.ofInt 16 v = w := by
  cases op <;> first | (cases h; done) | skip
  case add =>
    cases hw
    rw [intResult_ok h, BitVec.ofInt_add]
  case sub =>
    cases hw
    rw [intResult_ok h, Int.sub_eq_add_neg, BitVec.ofInt_add, BitVec.ofInt_neg, BitVec.sub_eq_add_neg]
  case mul =>
    cases hw
    rw [intResult_ok h, BitVec.ofInt_mul]
  case div =>
    simp only [BOp.sem, toInt_of16 hl, toInt_of16 hr, Bool.false_eq_true, if_false] at hw
    replace h : (if r = 0 then Except.error Err.ub else intResult (l.tdiv r)) = .ok v := h
    by_cases h0 : r = 0
    · rw [if_pos h0] at h; cases h
    rw [if_neg h0] at h
    rw [intResult_ok h]
    split at hw
    · cases hw
    · split at hw <;> cases hw; rfl
  case mod =>
    simp only [BOp.sem, toInt_of16 hl, toInt_of16 hr, Bool.false_eq_true, if_false] at hw
    replace h : (if r = 0 ∨ l = -(2 ^ 31) ∧ r = -1 then Except.error Err.ub else Except.ok (l.tmod r)) = .ok v := h
    split at h <;> cases h
    split at hw
    · cases hw
    · split at hw <;> cases hw; rfl
  case and =>
    cases hw; cases h
    show BitVec.ofInt 16 (BitVec.ofInt 32 l &&& BitVec.ofInt 32 r).toInt = _
    rw [ofInt_toInt32, BitVec.setWidth_and, setWidth_ofInt, setWidth_ofInt]
  case xor =>
    cases hw; cases h
    rw [ofInt_toInt32, BitVec.setWidth_xor, setWidth_ofInt, setWidth_ofInt]
  case or =>
    cases hw; cases h
    rw [ofInt_toInt32, BitVec.setWidth_or, setWidth_ofInt, setWidth_ofInt]
  case shl =>
    simp only [BOp.sem] at hw
    split at hw <;> cases hw
    rename_i hk
    obtain ⟨h0, h16, he⟩ := toNat_small hr hk
    rw [he]
    replace h : (if 0 ≤ r ∧ r < 32 ∧ 0 ≤ l then intResult (l * 2 ^ r.toNat) else .error .ub) = .ok v := h
    split at h
    · rw [intResult_ok h, BitVec.shiftLeft_eq_mul_twoPow, BitVec.ofInt_mul]
      congr 1
      rw [ofInt_pow]
      apply BitVec.eq_of_toNat_eq
      rw [BitVec.toNat_twoPow, BitVec.toNat_ofNat]
    · cases h
  case shr =>
    simp only [BOp.sem] at hw
    split at hw <;> cases hw
    rename_i hk
    obtain ⟨h0, h16, he⟩ := toNat_small hr hk
    rw [he]
    replace h : (if 0 ≤ r ∧ r < 32 then Except.ok (l >>> r.toNat) else Except.error Err.ub) = .ok v := h
    rw [if_pos (by omega)] at h
    cases h
    simp only [Bool.false_eq_true, if_false]
    apply BitVec.eq_of_toInt_eq
    rw [BitVec.toInt_sshiftRight, toInt_of16 hl, toInt_of16]
    unfold In16 at *
    rw [Int.shiftRight_eq_div_pow]
    have hp : (0 : Int) < 2 ^ r.toNat := Int.pow_pos (by decide)
    have key : ∀ p : Int, 0 < p → -32768 ≤ l / p ∧ l / p < 32768 := by
      intro p hp
      exact ⟨(Int.le_ediv_iff_mul_le hp).mpr (by omega), Int.ediv_lt_of_lt_mul hp (by omega)⟩
    exact key _ (by exact_mod_cast hp)

end SccCode

namespace Props
open SccCode

/-- C41: when the compiler folds `l op r`, the value is the one that the code it would write for the operator with the operands in AX and
CX leaves in AX. -/
theorem C41_fold (op : BOp) (l r v : Int) (hl : In16 l) (hr : In16 r) (h : Scc.constBinOp op.tok l r = .ok v) (w : I86.Word)
    (hw : op.sem false (BitVec.ofInt 16 l) (BitVec.ofInt 16 r) = some w) (s : Scc.S) (hs : Live s) (ht : s.type = Scc.vtInt)
    (hu : s.isUnsigned = false) :
    ∃ bs, (Room s bs.length → ∃ v s', (Scc.doBinOp op.tok Scc.rCX >>= fun _ => Scc.getVal) s = .ok () s' ∧
        Wrote { s with type := Scc.vtInt, val := v } bs s') ∧
      ∀ (K : I86.Contract) (c : I86.Cpu), c.ax = BitVec.ofInt 16 l → c.cx = BitVec.ofInt 16 r →
        At K c bs fun c' => c'.ax = BitVec.ofInt 16 v := by
  obtain ⟨bs, h1, h2⟩ := C39_binop op s hs ht
  refine ⟨bs, h1, fun K c ha hc => ?_⟩
  rw [fold_sem op l r v hl hr h w hw]
  refine (h2 K c w ?_).mono fun c' ⟨dx, h⟩ => h.reg 0
  rw [hu, ha, hc]; exact hw

/-- C41 with the code for a constant right operand.  The general statement has no hypotheses `hm` and `hd`; without them it is false
(`C41_mul_violated`, `C41_div_violated`). -/
theorem C41_const_partial (op : BOp) (l r v : Int) (hl : In16 l) (hr : In16 r) (h : Scc.constBinOp op.tok l r = .ok v) (w : I86.Word)
    (hw : op.sem false (BitVec.ofInt 16 l) (BitVec.ofInt 16 r) = some w) (hm : op = .mul → r ≠ 0)
    (hd : op = .div → ∀ k, r = 2 ^ (k + 1) → 0 ≤ l) (s : Scc.S) (hs : Live s) (ht : s.type = Scc.vtInt)
    (hu : s.isUnsigned = false) (hv : s.val = r) :
    ∃ bs, (Room s bs.length → ∃ v s', (Scc.doRhsConstBinOp op.tok >>= fun _ => Scc.getVal) s = .ok () s' ∧
        Wrote { s with type := Scc.vtInt, val := v } bs s') ∧
      ∀ (K : I86.Contract) (c : I86.Cpu), c.ax = BitVec.ofInt 16 l → At K c bs fun c' => c'.ax = BitVec.ofInt 16 v := by
  obtain ⟨bs, h1, h2⟩ := C39_const_partial op s hs ht (hv ▸ hr.1) (by rw [hu, hv]; exact hr.2) (by rw [hv]; exact hm)
  refine ⟨bs, h1, fun K c ha => ?_⟩
  rw [fold_sem op l r v hl hr h w hw]
  refine (h2 K c w ?_ ?_).mono fun c' ⟨cx, dx, h⟩ => h.reg 0
  · rw [hu, hv, ha]; exact hw
  · intro ho _ k hk
    rw [ha, toInt_of16 hl]
    exact hd ho k (hv ▸ hk)

/-- The operators whose value is no comparison are folded whenever the operands and the value are `int`s of the program and C defines
the result; left operands of `<<` must not be negative, as in C. -/
theorem C41_folds (op : BOp) (l r : Int) (hl : In16 l) (hr : In16 r) (hc : op.cmp false 0 0 = none)
    (hs : op = .shl → 0 ≤ l) (w : I86.Word) (hw : op.sem false (BitVec.ofInt 16 l) (BitVec.ofInt 16 r) = some w) :
    ∃ v, Scc.constBinOp op.tok l r = .ok v := by
  have hl' := hl
  have hr' := hr
  unfold In16 at hl' hr'
  have hi : ∀ v : Int, -(2 ^ 31) ≤ v → v < 2 ^ 31 → ∃ w, Scc.intResult v = .ok w := fun v h1 h2 => ⟨v, if_pos ⟨h1, h2⟩⟩
  cases op <;> first | (cases hc; done) | skip
  case add => exact hi _ (by omega) (by omega)
  case sub => exact hi _ (by omega) (by omega)
  case mul =>
    have h1 : (l * r).natAbs ≤ 32768 * 32768 := by
      rw [Int.natAbs_mul]; exact Nat.mul_le_mul (by omega) (by omega)
    exact hi (l * r) (by omega) (by omega)
  case div =>
    have h0 : r ≠ 0 := fun e => by subst e; cases hw
    have h1 : (l.tdiv r).natAbs ≤ 32768 := by
      rw [Int.natAbs_tdiv]; exact Nat.le_trans (Nat.div_le_self ..) (by omega)
    obtain ⟨v, hv⟩ := hi (l.tdiv r) (by omega) (by omega)
    exact ⟨v, (if_neg h0).trans hv⟩
  case mod =>
    have h0 : r ≠ 0 := fun e => by subst e; cases hw
    show ∃ v, (if r = 0 ∨ l = -(2 ^ 31) ∧ r = -1 then Except.error Prog.Err.ub else Except.ok (l.tmod r)) = .ok v
    exact ⟨_, if_neg (by omega)⟩
  case shl =>
    simp only [BOp.sem] at hw
    split at hw <;> cases hw
    rename_i hk
    obtain ⟨h0, h16, he⟩ := toNat_small hr hk
    have h2 : 2 ^ r.toNat ≤ 2 ^ 15 := Nat.pow_le_pow_right (by decide) (by omega)
    have h1 : (l * 2 ^ r.toNat).natAbs ≤ 32767 * 2 ^ 15 := by
      rw [Int.natAbs_mul, Int.natAbs_pow]; exact Nat.mul_le_mul (by have := hs rfl; omega) (by simpa using h2)
    obtain ⟨v, hv⟩ := (fun (x : Int) (h : x.natAbs ≤ 32767 * 2 ^ 15) => hi x (by omega) (by omega)) _ h1
    refine ⟨v, ?_⟩
    show (if 0 ≤ r ∧ r < 32 ∧ 0 ≤ l then Scc.intResult (l * 2 ^ r.toNat) else .error .ub) = .ok v
    rw [if_pos ⟨h0, by omega, hs rfl⟩]; exact hv
  case shr =>
    simp only [BOp.sem] at hw
    split at hw <;> cases hw
    rename_i hk
    obtain ⟨h0, h16, he⟩ := toNat_small hr hk
    show ∃ v, (if 0 ≤ r ∧ r < 32 then Except.ok (l >>> r.toNat) else Except.error Prog.Err.ub) = .ok v
    exact ⟨_, if_pos ⟨h0, by omega⟩⟩
  all_goals exact ⟨_, rfl⟩

/-- Folded operations within the hypotheses. -/
example : Scc.constBinOp BOp.div.tok (-7) 3 = .ok (-2) ∧ BOp.div.sem false (BitVec.ofInt 16 (-7)) (BitVec.ofInt 16 3) = some (-2) ∧
    Scc.constBinOp BOp.mul.tok 300 (-300) = .ok (-90000) ∧ BOp.mul.sem false (BitVec.ofInt 16 300) (BitVec.ofInt 16 (-300)) = some (-90000) ∧
    In16 (-7) ∧ In16 300 := by
  refine ⟨rfl, by decide, rfl, by decide, ?_, ?_⟩ <;> unfold In16 <;> decide

/-- C41, violated: `-1/2` is folded to 0, but the code for `x/2` gives -1 for `x = -1`. -/
theorem C41_div_violated (s : Scc.S) (hs : Live s) (hv : s.val = 2) (hu : s.isUnsigned = false) (hr : Room s 2) :
    Scc.constBinOp BOp.div.tok (-1) 2 = .ok 0 ∧
    (∃ s', Scc.doRhsConstBinOp BOp.div.tok s = .ok () s' ∧ Wrote s [0xD1, 0xF8] s') ∧
    ∀ (K : I86.Contract) (c : I86.Cpu), c.ax = -1 → At K c [0xD1, 0xF8] fun c' => c'.ax = -1 :=
  ⟨by rfl, (C39_div_pow2_violated s hs hv hu hr).1, (C39_div_pow2_violated s hs hv hu hr).2.2⟩

/-- C41, violated: `5*0` is folded to 0, but no code is written for `x*0`. -/
theorem C41_mul_violated (s : Scc.S) (hv : s.val = 0) :
    Scc.constBinOp BOp.mul.tok 5 0 = .ok 0 ∧ Scc.doRhsConstBinOp BOp.mul.tok s = .ok () s :=
  ⟨by rfl, C39_mul_zero_violated s hv⟩

/-- C41, violated: comparisons of constants are not folded but make the compiler fail, though there is code for them. -/
theorem C41_cmp_violated (l r : Int) : Scc.constBinOp BOp.lt.tok l r = .error .fatal := rfl

end Props
