import Verif.Props.SccBin
/-!
# The code `scc.c` emits for binary operators with a constant (C39)
-/
namespace SccCode
open Prog Scc I86
open I86.Cpu hiding lo hi rd

/-! ## The bytes -/

def movCx (v : Int) : List Byte := [nb (0xB8 ||| rCX), Scc.lo v, Scc.hi v]

/-- The bytes of `DoRhsConstBinOp`. -/
def constBytes (u : Bool) (op : BOp) (v : Int) : List Byte :=
  match op with
  | .add => addBytes 0 v
  | .sub => addBytes 0 (-v)
  | .mul => if landI v (v - 1) ≠ 0 then movCx v ++ [0xF7, 0xE1] else shifts 0xE0 v.toNat.log2
  | .div => if landI v (v - 1) ≠ 0 then movCx v ++ divBytes u else shifts (if u then 0xE8 else 0xF8) v.toNat.log2
  | .mod => movCx v ++ binBytes u .mod 1
  | .shl => [0xB1, Scc.lo v] ++ binBytes u .shl 1
  | .shr => [0xB1, Scc.lo v] ++ binBytes u .shr 1
  | op =>
    match op.alu u with
    | some (i, _) => [nb (i ||| 5), Scc.lo v, Scc.hi v]
    | none => []

theorem movDiv_raw (v : Int) (s : S) (hs : Live s) :
    (emitMovRImm rCX v >>= fun _ => emitDivCX) s = raw (movCx v ++ divBytes s.isUnsigned) s := by
  rw [raw_append, bind_run, bind_run]
  rw [show emitMovRImm rCX v s = raw (movCx v) s from hs.output _]
  cases e : raw (movCx v) s with
  | ok a s' =>
    simp only
    rw [div_raw s' (hs.of_raw e), of_raw_unsigned e]
  | err e => rfl

theorem outBin_raw (as : List Byte) (op : BOp) (s : S) (hs : Live s) :
    (output as >>= fun _ => doBinOp op.tok rCX) s = (raw (as ++ binBytes s.isUnsigned op 1) >>= fun _ => finishOp (op.cc s.isUnsigned)) s := by
  rw [bind_run, bind_run, hs.output, raw_append, bind_run]
  cases e : raw as s with
  | ok a s' =>
    simp only
    rw [binOp_raw op 1 s' (hs.of_raw e) (.inl rfl), bind_run, of_raw_unsigned e]
  | err e => rfl

theorem constOp_raw (op : BOp) (s : S) (hs : Live s) (hv : -(2 ^ 31) < s.val) (hv2 : s.val < 2 ^ 31) :
    doRhsConstBinOp op.tok s = (raw (constBytes s.isUnsigned op s.val) >>= fun _ => finishOp (op.cc s.isUnsigned)) s := by
  unfold doRhsConstBinOp
  refine run_getS ?_
  have z : ∀ bs, raw bs s = (raw bs >>= fun _ => finishOp 0) s := fun bs => (run_unit (x := raw bs) rfl).symm
  cases op <;> first
    | (cases s.isUnsigned <;> exact (bind_run _ _ _).trans (hs.output _ ▸ (bind_run _ _ _).symm))
    | skip
  · exact (addRegConst_raw _ _ hv s hs).trans (z _)
  · exact (run_ub (decide_eq_true hv) (addRegConst_raw _ _ (by omega) s hs)).trans (z _)
  · show emitScaleAx s.val s = _
    refine Eq.trans ?_ (z _)
    unfold emitScaleAx constBytes
    refine run_ub (decide_eq_true hv) ?_
    split
    · exact live_bind hs (hs.output _) fun s' hs' => hs'.output _
    · exact shiftLoop_raw _ _ _ (by omega) s hs
  · show emitDivAxConst s.val s = _
    refine Eq.trans ?_ (z _)
    unfold emitDivAxConst constBytes
    refine run_ub (decide_eq_true hv) ?_
    split
    · exact movDiv_raw _ s hs
    · exact shiftLoop_raw _ _ _ (by omega) s hs
  · exact outBin_raw (movCx s.val) .mod s hs
  · exact outBin_raw [0xB1, Scc.lo s.val] .shl s hs
  · exact outBin_raw [0xB1, Scc.lo s.val] .shr s hs

/-! ## Their effect -/

theorem landI_neg (v : Int) (h : -(2 ^ 31) < v) (h0 : v < 0) : landI v (v - 1) ≠ 0 := by
  unfold landI
  intro e
  have h1 : (BitVec.ofInt 32 v).msb = true := by rw [BitVec.msb_eq_toInt, BitVec.toInt_ofInt]; simp [Int.bmod]; omega
  have h2 : (BitVec.ofInt 32 (v - 1)).msb = true := by rw [BitVec.msb_eq_toInt, BitVec.toInt_ofInt]; simp [Int.bmod]; omega
  have h3 : (BitVec.ofInt 32 v &&& BitVec.ofInt 32 (v - 1)).msb = true := by rw [BitVec.msb_and, h1, h2]; rfl
  rw [BitVec.msb_eq_toInt] at h3
  have := of_decide_eq_true h3
  omega

theorem pow_of_landI (v : Int) (h : -(2 ^ 31) < v) (h2 : v < 2 ^ 31) (h0 : v ≠ 0) (hl : landI v (v - 1) = 0) : v = 2 ^ v.toNat.log2 := by
  by_cases hn : v < 0
  · exact absurd hl (landI_neg v h hn)
  · obtain ⟨n, rfl⟩ := Int.eq_ofNat_of_zero_le (Int.not_lt.mp hn)
    have := (landI_pow n (by omega) (by omega)).mp hl
    rw [Int.toNat_natCast]
    exact_mod_cast this

theorem at_movCx (K : Contract) (c : Cpu) (v : Int) : At K c (movCx v) (Upto { c with cx := BitVec.ofInt 16 v }) :=
  fun hc => code_movCx K v c hc

theorem at_movCl (K : Contract) (c : Cpu) (v : Int) : At K c [0xB1, Scc.lo v] fun c' => ∃ cx, Cpu.lo cx = Scc.lo v ∧ Upto { c with cx := cx } c' := by
  refine .one (ins := .movImm false (.reg 1) ((Scc.lo v).zeroExtend 16)) ⟨by simp, fun _ => rfl⟩ ⟨_, rfl, rfl, Cpu.hi c.cx ++ Cpu.lo ((Scc.lo v).zeroExtend 16), ?_, rfl⟩
  generalize Scc.lo v = b
  unfold Cpu.lo
  apply BitVec.eq_of_toNat_eq
  simp only [BitVec.toNat_setWidth, BitVec.toNat_append, BitVec.truncate_eq_setWidth]
  rw [Nat.shiftLeft_eq, Nat.mul_comm, ← Nat.two_pow_add_eq_or_of_lt (by omega)]
  omega

theorem at_movBin (K : Contract) (c : Cpu) (u : Bool) (op : BOp) (v : Int) (r : Word) (hc : op.cmp u c.ax (BitVec.ofInt 16 v) = none)
    (h : op.sem u c.ax (BitVec.ofInt 16 v) = some r) :
    At K c (movCx v ++ binBytes u op 1) fun c' => ∃ cx dx, Upto { c with ax := r, cx := cx, dx := dx } c' := by
  refine (at_movCx K c v).append fun c1 h1 => ⟨⟨h1.mem, h1.cs⟩, ?_⟩
  have hcx : c1.reg16 1 = BitVec.ofInt 16 v := h1.reg 1
  have hax : c1.ax = c.ax := h1.reg 0
  refine (at_bin K c1 u op 1 r (.inl rfl) (by rw [hax, hcx, hc]) (by rw [hax, hcx, h])).mono fun c2 ⟨dx, h2⟩ => ⟨BitVec.ofInt 16 v, dx, Upto.trans ?_ h2⟩
  rw [h1]; rfl

theorem enc_aluImm (u : Bool) (op : BOp) (a : AluOp) (i k : Nat) (h : op.alu u = some (i, k)) (ha : op.cpu = some a) (v : Int) :
    Enc [nb (i ||| 5), Scc.lo v, Scc.hi v] (.aluImm a true (.reg 0) (BitVec.ofInt 16 v)) := by
  rw [← word_lo_hi]
  refine ⟨by simp, fun junk => ?_⟩
  have hi : ∀ op : BOp, ∀ u, ((op.alu u).map (·.1)) = op.cpu.map fun a => match a with
    | .add => 0x01 | .sub => 0x29 | .and => 0x21 | .xor => 0x31 | .or => 0x09 | _ => 0x39 := by
    intro op u; cases op <;> cases u <;> rfl
  have hi := hi op u
  rw [h, ha] at hi
  cases hi
  cases op <;> cases ha <;> rfl

theorem exec_aluImm (K : Contract) (a : AluOp) (ha : a ≠ .cmp ∧ a ≠ .adc ∧ a ≠ .sbb) (w : Word) (c : Cpu) :
    exec K (.aluImm a true (.reg 0) w) c =
      .next { aluFlags K a c.ax w false c with ax := aluRes a c.ax w false } := by
  obtain ⟨h1, h2, h3⟩ := ha
  cases a <;> first | contradiction | rfl

theorem at_aluImm (K : Contract) (c : Cpu) (u : Bool) (op : BOp) (a : AluOp) (i k : Nat) (h : op.alu u = some (i, k)) (hcpu : op.cpu = some a)
    (ha : a ≠ .cmp ∧ a ≠ .adc ∧ a ≠ .sbb) (v : Int) :
    At K c [nb (i ||| 5), Scc.lo v, Scc.hi v] (Upto { c with ax := aluRes a c.ax (BitVec.ofInt 16 v) false }) :=
  .one (enc_aluImm u op a i k h hcpu v) ⟨_, exec_aluImm K a ha _ _, rfl, rfl⟩

theorem ofInt_pow (k : Nat) : BitVec.ofInt 16 (2 ^ k) = BitVec.ofNat 16 (2 ^ k) := by
  have := ofInt_natCast (2 ^ k)
  rw [← this]; congr 1

/-- The code of an operator with a constant whose value is no comparison. -/
theorem at_const (K : Contract) (c : Cpu) (u : Bool) (op : BOp) (v : Int) (r : Word) (hlo : -32768 ≤ v) (hhi : v < 65536)
    (hc : op.cmp u c.ax (BitVec.ofInt 16 v) = none) (h : op.sem u c.ax (BitVec.ofInt 16 v) = some r)
    (hm : op = .mul → v ≠ 0) (hd : op = .div → u = false → v < 32768 ∧ ∀ k, v = 2 ^ (k + 1) → 0 ≤ c.ax.toInt) :
    At K c (constBytes u op v) fun c' => ∃ cx dx, Upto { c with ax := r, cx := cx, dx := dx } c' := by
  cases op <;> first | (cases hc; done) | skip
  case add =>
    cases h
    exact fun hp => (code_add K 0 v c hp).mono fun c' ⟨hi, h⟩ => ⟨hi, c.cx, c.dx, h⟩
  case sub =>
    cases h
    refine fun hp => (code_add K 0 (-v) c hp).mono fun c' ⟨hi, h⟩ => ⟨hi, c.cx, c.dx, ?_⟩
    simp only [Sets, BitVec.ofInt_neg, ← BitVec.sub_eq_add_neg] at h
    exact h
  case mul =>
    simp only [constBytes]
    by_cases hl : landI v (v - 1) ≠ 0
    · rw [if_pos hl]
      exact at_movBin K c u .mul v r rfl h
    · rw [if_neg hl]
      have hp := pow_of_landI v (by omega) (by omega) (hm rfl) (by simpa using hl)
      cases h
      refine fun hx => (code_shifts K .shl 0xE0 ⟨by simp, fun _ => rfl⟩ _ c hx).mono fun c' ⟨hi, h⟩ => ⟨hi, c.cx, c.dx, ?_⟩
      simp only [Sets, iter_shl] at h
      rw [← ofInt_pow, ← hp] at h
      exact h
  case div =>
    have h0 : v ≠ 0 := fun e => by subst e; simp [BOp.sem] at h
    have hb0 : ¬ BitVec.ofInt 16 v = 0 := fun e => by rw [e] at h; simp [BOp.sem] at h
    simp only [constBytes]
    by_cases hl : landI v (v - 1) ≠ 0
    · rw [if_pos hl]
      exact at_movBin K c u .div v r rfl h
    · rw [if_neg hl]
      have hp := pow_of_landI v (by omega) (by omega) h0 (by simpa using hl)
      have hvp : 0 < v := by rw [hp]; exact Int.pow_pos (by decide)
      simp only [BOp.sem, hb0, if_false] at h
      cases u
      · simp only [Bool.false_eq_true, if_false] at h
        obtain ⟨hv, hneg⟩ := hd rfl rfl
        have hi : (BitVec.ofInt 16 v).toInt = v := by rw [BitVec.toInt_ofInt]; simp only [Int.bmod]; omega
        rw [hi] at h
        have h2 : ¬ (c.ax.toInt = -32768 ∧ v = -1) := by omega
        simp only [h2, if_false] at h
        cases h
        refine fun hx => (code_shifts K .sar 0xF8 ⟨by simp, fun _ => rfl⟩ _ c hx).mono fun c' ⟨hi, h⟩ => ⟨hi, c.cx, c.dx, ?_⟩
        simp only [Sets, iter_sar] at h
        rw [← hp] at h
        have : c.ax.toInt.tdiv v = c.ax.toInt / v := by
          cases hk : v.toNat.log2 with
          | zero => rw [hk] at hp; rw [hp]; simp
          | succ k => rw [hk] at hp; exact Int.tdiv_eq_ediv_of_nonneg (hneg k hp)
        rw [this]
        exact h
      · simp only [if_true] at h
        have hin : ((BitVec.ofInt 16 v).toNat : Int) = v := by rw [BitVec.toNat_ofInt]; omega
        cases h
        refine fun hx => (code_shifts K .shr 0xE8 ⟨by simp, fun _ => rfl⟩ _ c hx).mono fun c' ⟨hi, h⟩ => ⟨hi, c.cx, c.dx, ?_⟩
        simp only [Sets, iter_shr] at h
        have : (BitVec.ofInt 16 v).toNat = 2 ^ v.toNat.log2 := by
          have : ((BitVec.ofInt 16 v).toNat : Int) = 2 ^ v.toNat.log2 := by rw [hin, ← hp]
          exact_mod_cast this
        rw [this]
        exact h
  case mod => exact at_movBin K c u .mod v r rfl h
  case and => cases h; exact (at_aluImm K c u .and .and _ _ rfl rfl (by decide) v).mono fun _ h => ⟨c.cx, c.dx, h⟩
  case xor => cases h; exact (at_aluImm K c u .xor .xor _ _ rfl rfl (by decide) v).mono fun _ h => ⟨c.cx, c.dx, h⟩
  case or => cases h; exact (at_aluImm K c u .or .or _ _ rfl rfl (by decide) v).mono fun _ h => ⟨c.cx, c.dx, h⟩
  all_goals
    simp only [BOp.sem] at h
    have h16 : (BitVec.ofInt 16 v).toNat < 16 := Decidable.byContradiction fun e => by rw [if_neg e] at h; cases h
    simp only [h16, if_true] at h
    cases h
    refine (at_movCl K c v).append fun c1 ⟨cx, hl, h1⟩ => ⟨⟨h1.mem, h1.cs⟩, ?_⟩
    have hcx : c1.cx = cx := h1.reg 1
    have hax : c1.ax = c.ax := h1.reg 0
    have hlo : (Cpu.lo c1.cx).toNat = (BitVec.ofInt 16 v).toNat := by
      rw [hcx, hl]
      unfold Scc.lo byteOf
      rw [BitVec.toNat_ofInt] at *
      rw [BitVec.toNat_ofInt]; omega
    refine (at_shift K c1 u _ _ hlo h16 (by decide)).mono fun c2 h2 => ⟨cx, c.dx, Upto.trans ?_ h2⟩
    rw [hax, h1]; rfl

/-- The code of a comparison with a constant sets the flags that its condition code tests. -/
theorem at_constCmp (K : Contract) (c : Cpu) (u : Bool) (op : BOp) (v : Int) (b : Bool) (h : op.cmp u c.ax (BitVec.ofInt 16 v) = some b) :
    At K c (constBytes u op v) fun c' => Upto c c' ∧ c'.cond (Fin.ofNat 16 (op.cc u)) = some b := by
  have hx : op.cpu = some .cmp ∧ ∃ k, op.alu u = some (0x39, k) ∧ constBytes u op v = [nb (0x39 ||| 5), Scc.lo v, Scc.hi v] := by
    cases op <;> first | (cases h; done) | (cases u <;> exact ⟨rfl, _, rfl, rfl⟩)
  obtain ⟨hcpu, k, ha, hb⟩ := hx
  rw [hb]
  exact .one (enc_aluImm u op .cmp _ k ha hcpu v) ⟨aluFlags K .cmp c.ax (BitVec.ofInt 16 v) false { c with ip := _ }, rfl, rfl, rfl,
    (cmp_cond (cmp_flags ..) u op b h).2⟩

/-- All bytes of an operator with a constant, with its value in AX. -/
def constValBytes (u : Bool) (op : BOp) (v : Int) : List Byte := constBytes u op v ++ if op.cc u = 0 then [] else boolBytes (op.cc u)

theorem at_constVal (K : Contract) (c : Cpu) (u : Bool) (op : BOp) (v : Int) (r : Word) (hlo : -32768 ≤ v) (hhi : v < 65536)
    (h : op.sem u c.ax (BitVec.ofInt 16 v) = some r)
    (hm : op = .mul → v ≠ 0) (hd : op = .div → u = false → v < 32768 ∧ ∀ k, v = 2 ^ (k + 1) → 0 ≤ c.ax.toInt) :
    At K c (constValBytes u op v) fun c' => ∃ cx dx, Upto { c with ax := r, cx := cx, dx := dx } c' := by
  unfold constValBytes
  cases hc : op.cmp u c.ax (BitVec.ofInt 16 v) with
  | none =>
    have : op.cc u = 0 := by
      cases op <;> first | (cases hc; done) | (cases u <;> rfl)
    rw [if_pos this, List.append_nil]
    exact at_const K c u op v r hlo hhi hc h hm hd
  | some b =>
    have hcc : op.cc u ≠ 0 ∧ op.cc u < 16 := by
      cases op <;> first | (cases hc; done) | (cases u <;> decide)
    have hv : r = b2w b := by
      cases op <;> first | (cases hc; done) | exact (Option.some.inj ((congrArg (Option.map b2w) hc).symm.trans h)).symm
    rw [if_neg hcc.1]
    refine (at_constCmp K c u op v b hc).append fun c' ⟨hu, hcond⟩ => ⟨⟨hu.mem, hu.cs⟩, ?_⟩
    have := at_bool K c' (Fin.ofNat 16 (op.cc u)) b hcond
    rw [show (Fin.ofNat 16 (op.cc u)).val = op.cc u from Nat.mod_eq_of_lt hcc.2] at this
    exact this.mono fun c2 h2 => ⟨c.cx, c.dx, by rw [h2, hu, hv]; rfl⟩

/-- After an operation that ended with `FinishOp`, `GetVal` brings its value into AX. -/
theorem fin_put {x : A Unit} {s : S} {bs : List Byte} {cc : Nat} (hs : Live s) (ht : s.type = vtInt)
    (e : x s = (raw bs >>= fun _ => finishOp cc) s) (hroom : Room s (bs ++ if cc = 0 then [] else boolBytes cc).length) :
    ∃ v, (x >>= fun _ => getVal) s = .ok () (put { s with type := vtInt, val := v } (bs ++ if cc = 0 then [] else boolBytes cc)) := by
  obtain ⟨h1, h2⟩ := hroom.put
  rw [bind_run, raw_put _ _ h1] at e
  by_cases hc : cc = 0
  · subst hc
    rw [if_pos rfl, List.append_nil]
    refine ⟨s.val, run_bind e ?_⟩
    rw [show put { s with type := vtInt, val := s.val } bs = put s bs by rw [← ht]]
    exact getVal_int _ ((put_proj bs s).1.trans ht)
  · rw [if_neg hc] at h2 ⊢
    rw [show finishOp cc = modS fun z => { z with type := vtBool, val := (cc : Int) } from if_neg hc] at e
    refine ⟨(cc : Int), run_bind e ((getVal_bool { put s bs with type := vtBool, val := (cc : Int) } ?_ rfl _ rfl ?_).trans ?_)⟩
    · exact ⟨(hs.put _).dead, (hs.put _).spAdj, (hs.put _).push⟩
    · exact h2
    · rw [put_append]
      exact congrArg (fun z => Res.ok () (put z _)) (put_type ..)

end SccCode

namespace Props
open SccCode

/-- C39 for a constant right operand (`Val`): `DoRhsConstBinOp` writes code that computes the value in AX.  The general statement has no
other hypothesis than that the value is defined; missing are a product with 0 (`C39_mul_zero_violated`) and the signed quotient of a
negative number by a power of two (`C39_div_pow2_violated`), for which the code is wrong. -/
theorem C39_const_partial (op : BOp) (s : Scc.S) (hs : Live s) (ht : s.type = Scc.vtInt) (hlo : -32768 ≤ s.val)
    (hhi : s.val < if s.isUnsigned then 65536 else 32768) (hm : op = .mul → s.val ≠ 0) :
    ∃ bs, (Room s bs.length → ∃ v s', (Scc.doRhsConstBinOp op.tok >>= fun _ => Scc.getVal) s = .ok () s' ∧
        Wrote { s with type := Scc.vtInt, val := v } bs s') ∧
      ∀ (K : I86.Contract) (c : I86.Cpu) (v : I86.Word), op.sem s.isUnsigned c.ax (BitVec.ofInt 16 s.val) = some v →
        (op = .div → s.isUnsigned = false → ∀ k, s.val = 2 ^ (k + 1) → 0 ≤ c.ax.toInt) →
        At K c bs fun c' => ∃ cx dx, Upto { c with ax := v, cx := cx, dx := dx } c' := by
  have hhi' : s.val < 65536 := by split at hhi <;> omega
  refine ⟨constValBytes s.isUnsigned op s.val, fun hr => ?_, fun K c v h hd => at_constVal K c _ op _ v hlo hhi' h hm fun ho hu => ⟨?_, hd ho hu⟩⟩
  · obtain ⟨v, e⟩ := fin_put hs ht (constOp_raw op s hs (by omega) (by omega)) hr
    exact ⟨v, _, e, put_wrote _ _ hr⟩
  · rw [hu] at hhi; exact hhi

/-- A state in which `x % 7` and `x * 10` can be compiled, and values of them. -/
example : ∃ s, Live s ∧ Room s 100 ∧ s.type = Scc.vtInt ∧ s.val = 7 ∧ s.isUnsigned = false :=
  ⟨{ Scc.init [] with type := Scc.vtInt, val := 7 }, ⟨rfl, rfl, rfl⟩, ⟨by decide, by decide⟩, rfl, rfl, rfl⟩
example : BOp.mod.sem false (-9) 7 = some (-2) ∧ BOp.mul.sem false 10 (-3) = some (-30) ∧ BOp.lt.sem false (-1) 1 = some 1 ∧
    BOp.lt.sem true (-1) 1 = some 0 ∧ BOp.shr.sem false (-9) 1 = some (-5) := by decide
example : constValBytes false .mod 7 = [0xB9, 7, 0, 0x99, 0xF7, 0xF9, 0x92] ∧ constValBytes true .lt 300 = [0x3D, 0x2C, 1, 0xB8, 0, 0, 0x73, 1, 0x40] := by
  decide +kernel

/-- C39, violated: for `x * 0` no code at all is written, so that AX keeps the value of `x`. -/
theorem C39_mul_zero_violated (s : Scc.S) (hv : s.val = 0) : Scc.doRhsConstBinOp BOp.mul.tok s = .ok () s := by
  unfold Scc.doRhsConstBinOp
  refine Prog.run_getS ?_
  rw [hv]; rfl

/-- C39, violated: the code for the signed `x / 2` gives -1 for `x = -1`, where C has 0. -/
theorem C39_div_pow2_violated (s : Scc.S) (hs : Live s) (hv : s.val = 2) (hu : s.isUnsigned = false) (hr : Room s 2) :
    (∃ s', Scc.doRhsConstBinOp BOp.div.tok s = .ok () s' ∧ Wrote s [0xD1, 0xF8] s') ∧
    BOp.div.sem false (-1) 2 = some 0 ∧
    ∀ (K : I86.Contract) (c : I86.Cpu), c.ax = -1 → At K c [0xD1, 0xF8] fun c' => c'.ax = -1 := by
  refine ⟨?_, by decide, fun K c h => ?_⟩
  · have e := constOp_raw .div s hs (by omega) (by omega)
    rw [hv, hu] at e
    rw [show constBytes false .div 2 = [0xD1, 0xF8] by decide +kernel] at e
    exact ⟨_, e.trans (Prog.run_bind (raw_put [0xD1, 0xF8] s hr) rfl), put_wrote _ _ hr⟩
  · refine .one (ins := .shift .sar .one (.reg 0)) ⟨by simp, fun _ => rfl⟩ ⟨_, rfl, rfl, ?_⟩
    show (I86.Cpu.shiftRes .sar c.ax 1).1 = -1
    rw [h]; decide

end Props
