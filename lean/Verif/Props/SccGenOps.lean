import Verif.Props.SccGenExec
/-!
# Compiled expressions (C43): the single operators
-/
namespace SccGen
open Scc SccCode I86
open I86.Cpu hiding lo hi rd

/-- `v` is the value of the operator `o`: in AX (and in the zero flag if `z`), or in the flags for a comparison. -/
def Val (o : BOp) (v : Word) (z : Prop) (c : Cpu) : Prop :=
  (o.cc false = 0 → c.ax = v ∧ (z → c.zf = some (v == 0))) ∧
  (o.cc false ≠ 0 → ∃ b, c.cond (Fin.ofNat 16 (o.cc false)) = some b ∧ v = b2w b)

/-- The operators that one instruction of the ALU computes. -/
def Plain (o : BOp) : Prop := o = .and ∨ o = .xor ∨ o = .or ∨ o = .sub ∨ o = .add

theorem cmp_cases (o : BOp) (a b : Word) : (o.cc false = 0 ∧ o.cmp false a b = none) ∨
    (o.cc false ≠ 0 ∧ ∃ v, o.cmp false a b = some v ∧ o.sem false a b = some (b2w v)) := by
  cases o <;> first | exact .inl ⟨rfl, rfl⟩ | exact .inr ⟨by decide, _, rfl, rfl⟩

theorem aluFlags_zf (K : Contract) (a : AluOp) (x y : Word) (b : Bool) (c : Cpu) : (aluFlags K a x y b c).zf = some (aluRes a x y b == 0) := by
  simp [aluFlags, Flag.of]

theorem plain_alu {o : BOp} (h : Plain o) (a b v : Word) (hv : o.sem false a b = some v) :
    ∃ op i, o.cpu = some op ∧ o.alu false = some (i, 0) ∧ (op ≠ .cmp ∧ op ≠ .adc ∧ op ≠ .sbb) ∧ aluRes op a b false = v := by
  rcases h with rfl | rfl | rfl | rfl | rfl <;> cases hv <;> exact ⟨_, _, rfl, rfl, by decide, rfl⟩

/-- An operator with a register. -/
theorem val_bin (K : Contract) (c : Cpu) (o : BOp) (r : Fin 8) (v : Word) (hr : r = 1 ∨ o = .mul ∨ (o.alu false).isSome)
    (h : o.sem false c.ax (c.reg16 r) = some v) :
    At K c (binBytes false o r.val) fun c' => (∃ a d, Upto { c with ax := a, dx := d } c') ∧ Val o v (Plain o) c' := by
  rcases cmp_cases o c.ax (c.reg16 r) with ⟨h0, hc⟩ | ⟨h0, b, hc, hs⟩
  · by_cases hz : Plain o
    · obtain ⟨op, i, hcpu, hal, hne, hres⟩ := plain_alu hz _ _ _ h
      unfold binBytes
      rw [hal]
      refine .one (enc_alu false o op i 0 hal hcpu r) ⟨_, exec_aluReg K op hne r _, rfl, ⟨v, c.dx, ?_⟩, fun _ => ⟨?_, fun _ => ?_⟩, fun e => absurd h0 e⟩
      · rw [reg16_ip, hres]; rfl
      · rw [reg16_ip]; exact hres
      · rw [reg16_ip]; exact (aluFlags_zf _ _ _ _ _ c).trans (by rw [hres])
    · exact (at_bin K c false o r v hr hc h).mono fun c' ⟨d, hu⟩ => ⟨⟨v, d, hu⟩, fun _ => ⟨hu.reg 0, fun e => absurd e hz⟩, fun e => absurd h0 e⟩
  · refine (at_cmp K c false o r b hc).mono fun c' ⟨hu, hcc⟩ => ⟨⟨c.ax, c.dx, hu⟩, fun e => absurd e h0, fun _ => ⟨b, hcc, ?_⟩⟩
    rw [hs] at h; cases h; rfl

/-- Adding a constant. -/
theorem val_add (K : Contract) (c : Cpu) (y : Int) (hy : SccGen.Sets K.incDecFlags y) :
    At K c (addBytes 0 y) fun c' => Upto { c with ax := c.ax + BitVec.ofInt 16 y } c' ∧ c'.zf = some (c.ax + BitVec.ofInt 16 y == 0) := by
  have h0 : ¬ y = 0 := hy.1
  have key : ∀ (bs : List Byte), Enc bs (.aluImm (if decide (y < 0) then .sub else .add) true (.reg 0) (BitVec.ofNat 16 y.natAbs)) →
      At K c bs fun c' => Upto { c with ax := c.ax + BitVec.ofInt 16 y } c' ∧ c'.zf = some (c.ax + BitVec.ofInt 16 y == 0) := by
    intro bs he
    have hres : aluRes (if decide (y < 0) then .sub else .add) c.ax (BitVec.ofNat 16 y.natAbs) false = c.ax + BitVec.ofInt 16 y := by
      rw [← signed_abs]
      cases decide (y < 0)
      · rfl
      · exact BitVec.sub_eq_add_neg ..
    refine .one he ⟨_, exec_aluImm K _ (by split <;> decide) _ _, rfl, ?_, ?_⟩
    · rw [hres]; rfl
    · exact (aluFlags_zf _ _ _ _ _ c).trans (by rw [hres])
  unfold addBytes
  have hneg0 : (if y < 0 then 0 + 0x28 else 0) = if decide (y < 0) = true then 0x28 else 0 := by
    simp only [decide_eq_true_eq, Nat.zero_add]
  simp only [h0, if_false, hneg0]
  by_cases h2 : y.natAbs ≤ 2
  · have hi : K.incDecFlags = true := by rcases hy.2 with h | h | h <;> first | exact h | omega
    have one : ∀ c : Cpu, At K c [nb (((if decide (y < 0) = true then 0x28 else 0) &&& 15) ||| 0x40)] fun c' =>
        Upto { c with ax := c.ax + signed (decide (y < 0)) 1 } c' ∧ c'.zf = some (c.ax + signed (decide (y < 0)) 1 == 0) := by
      intro c
      have hres : aluRes (if decide (y < 0) then .sub else .add) c.ax 1 false = c.ax + signed (decide (y < 0)) 1 := by
        cases decide (y < 0)
        · rfl
        · exact BitVec.sub_eq_add_neg ..
      refine .one (ins := .incDec (decide (y < 0)) true (.reg 0)) (by
        have := enc_incDec 0 (decide (y < 0))
        simpa using this) ⟨_, rfl, rfl, ?_, ?_⟩
      · rw [← hres]; rfl
      · rw [← hres, hi]; rfl
    simp only [h2, if_true]
    have hab := signed_abs y
    obtain h3 | h3 : y.natAbs = 1 ∨ y.natAbs = 2 := by omega
    · rw [h3] at hab ⊢
      rw [← hab]
      exact one c
    · rw [h3] at hab ⊢
      rw [← hab]
      refine (one c).append (bs := [nb (((if decide (y < 0) = true then 0x28 else 0) &&& 15) ||| 0x40)]) fun c1 ⟨hu, _⟩ => ⟨⟨hu.mem, hu.cs⟩, (one c1).mono fun c2 ⟨hu2, hz⟩ => ?_⟩
      have e : c1.ax + signed (decide (y < 0)) 1 = c.ax + signed (decide (y < 0)) (BitVec.ofNat 16 2) := by
        have : c1.ax = c.ax + signed (decide (y < 0)) 1 := hu.reg 0
        rw [this, BitVec.add_assoc]
        cases decide (y < 0) <;> rfl
      rw [e] at hu2 hz
      exact ⟨(hu.set 0 _).trans hu2, hz⟩
  simp only [h2, if_false, if_true]
  by_cases h3 : y.natAbs < 128
  · simp only [h3, if_true]
    have := enc_alu8 0 (decide (y < 0)) (nb y.natAbs)
    rw [sext_nb h3] at this
    simp only [Fin.val_zero, Nat.zero_add] at this
    exact key _ this
  · simp only [h3, if_false]
    have := enc_aluAx (decide (y < 0)) (Scc.lo y.natAbs) (Scc.hi y.natAbs)
    rw [word_lo_hi, ofInt_natCast] at this
    exact key _ this

/-- An operator with a constant. -/
theorem val_const (K : Contract) (c : Cpu) (o : BOp) (y : Int) (v : Word) (hy : In16 y) (h : o.sem false c.ax (BitVec.ofInt 16 y) = some v)
    (hm : o = .mul → y ≠ 0) (hd : o = .div → ∀ k : Nat, y = 2 ^ (k + 1) → 0 ≤ c.ax.toInt) :
    At K c (constBytes false o y) fun c' => (∃ a x d, Upto { c with ax := a, cx := x, dx := d } c') ∧
      Val o v (o = .and ∨ o = .xor ∨ o = .or ∨ (o = .sub ∨ o = .add) ∧ SccGen.Sets K.incDecFlags y) c' := by
  rcases cmp_cases o c.ax (BitVec.ofInt 16 y) with ⟨h0, hc⟩ | ⟨h0, b, hc, hs⟩
  · by_cases hz : o = .and ∨ o = .xor ∨ o = .or ∨ (o = .sub ∨ o = .add) ∧ SccGen.Sets K.incDecFlags y
    · have imm : ∀ {i}, o.alu false = some (i, 0) → Plain o →
          At K c [nb (i ||| 5), Scc.lo y, Scc.hi y] fun c' => (∃ a x d, Upto { c with ax := a, cx := x, dx := d } c') ∧
            Val o v (o = .and ∨ o = .xor ∨ o = .or ∨ (o = .sub ∨ o = .add) ∧ SccGen.Sets K.incDecFlags y) c' := by
        intro i hi hp
        obtain ⟨op, i', hcpu, hal, hne, hres⟩ := plain_alu hp _ _ _ h
        refine .one (enc_aluImm false o op _ _ hi hcpu y) ⟨_, exec_aluImm K op hne _ _, rfl, ⟨v, c.cx, c.dx, ?_⟩, fun _ => ⟨?_, fun _ => ?_⟩, fun e => absurd h0 e⟩
        · rw [hres]; rfl
        · exact hres
        · exact (aluFlags_zf _ _ _ _ _ c).trans (by rw [hres])
      rcases hz with rfl | rfl | rfl | ⟨rfl | rfl, hb⟩
      · exact imm rfl (by simp [Plain])
      · exact imm rfl (by simp [Plain])
      · exact imm rfl (by simp [Plain])
      · cases h
        have e : c.ax - BitVec.ofInt 16 y = c.ax + BitVec.ofInt 16 (-y) := by rw [BitVec.ofInt_neg, BitVec.sub_eq_add_neg]
        rw [e]
        exact (val_add K c (-y) ⟨by have := hb.1; omega, hb.2.imp id fun h => by omega⟩).mono fun c' ⟨hu, hz⟩ => ⟨⟨_, _, _, hu⟩, fun _ => ⟨hu.reg 0, fun _ => hz⟩, fun e => absurd h0 e⟩
      · cases h
        exact (val_add K c y hb).mono fun c' ⟨hu, hz⟩ => ⟨⟨_, _, _, hu⟩, fun _ => ⟨hu.reg 0, fun _ => hz⟩, fun e => absurd h0 e⟩
    · refine (at_const K c false o y v hy.1 (by have := hy.2; omega) hc h hm (fun ho _ => ⟨hy.2, hd ho⟩)).mono fun c' ⟨x, d, hu⟩ => ⟨⟨v, x, d, hu⟩, fun _ => ⟨hu.reg 0, fun e => absurd e hz⟩, fun e => absurd h0 e⟩
  · refine (at_constCmp K c false o y b hc).mono fun c' ⟨hu, hcc⟩ => ⟨⟨c.ax, c.cx, c.dx, hu⟩, fun e => absurd e h0, fun _ => ⟨b, hcc, ?_⟩⟩
    rw [hs] at h; cases h; rfl

/-! ## Variables -/

theorem sext_lo {v : Int} (h : fits8 v = true) : (Scc.lo v).signExtend 16 = BitVec.ofInt 16 v := by
  have h : (byteOf v).toInt = v := by simpa [fits8] using h
  show (byteOf v).signExtend 16 = _
  rw [BitVec.signExtend, h]

theorem enc_load (v : Int) : Enc (modB 0x8B 0 v) (.movRegRm true 0 (.mem none .bp (BitVec.ofInt 16 v))) := by
  unfold modB
  by_cases h : fits8 v = true
  · rw [if_pos h, ← sext_lo h]; exact ⟨by simp, fun _ => rfl⟩
  · rw [if_neg h, ← word_lo_hi]; exact ⟨by simp, fun _ => rfl⟩

theorem enc_aluMem (o : BOp) (a : AluOp) (i k : Nat) (h : o.alu false = some (i, k)) (ha : o.cpu = some a) (v : Int) :
    Enc (modB (i ||| 3) 0 v) (.aluRegRm a true 0 (.mem none .bp (BitVec.ofInt 16 v))) := by
  unfold modB
  by_cases hf : fits8 v = true
  · rw [if_pos hf, ← sext_lo hf]
    refine ⟨by simp, fun _ => ?_⟩
    cases o <;> cases h <;> cases ha <;> rfl
  · rw [if_neg hf, ← word_lo_hi]
    refine ⟨by simp, fun _ => ?_⟩
    cases o <;> cases h <;> cases ha <;> rfl

variable {F : Fr}

theorem Inv.rd {r : Bool} {stk : List Word} {c : Cpu} (h : Inv F r stk c) {x : Nat} (hx : x ∈ F.xs) (n : Word) :
    rm16 { c with ip := n } (.mem none .bp (BitVec.ofInt 16 (F.off x))) = F.ρ x := by
  rw [← h.vars x hx, ← h.ss, ← h.bp]
  exact rd16_eq ..

theorem Inv.load {r : Bool} {stk : List Word} {c : Cpu} (h : Inv F r stk c) {x : Nat} (hx : x ∈ F.xs) :
    Ex F c (modB 0x8B 0 (F.off x)) (Upto { c with ax := F.ρ x }) := by
  refine .one (enc_load _) ⟨_, rfl, rfl, .of_mem rfl, ?_⟩
  simp only [if_true, h.rd hx]
  rfl

theorem exec_aluMem (K : Contract) (a : AluOp) (ha : a ≠ .cmp ∧ a ≠ .adc ∧ a ≠ .sbb) (m : RM) (c : Cpu) :
    exec K (.aluRegRm a true 0 m) c = .next { aluFlags K a c.ax (c.rm16 m) false c with ax := aluRes a c.ax (c.rm16 m) false } := by
  obtain ⟨h1, h2, h3⟩ := ha
  cases a <;> first | contradiction | rfl

/-- An operation of the ALU with a variable. -/
theorem Inv.aluVar {r : Bool} {stk : List Word} {c : Cpu} (h : Inv F r stk c) {x : Nat} (hx : x ∈ F.xs) (o : BOp) (i k : Nat)
    (hal : o.alu false = some (i, k)) (v : Word) (hv : o.sem false c.ax (F.ρ x) = some v) :
    Ex F c (modB (i ||| 3) 0 (F.off x)) fun c' => (∃ a, Upto { c with ax := a } c') ∧ Val o v (Plain o) c' := by
  rcases cmp_cases o c.ax (F.ρ x) with ⟨h0, hc⟩ | ⟨h0, b, hc, hs⟩
  · have hp : Plain o := by
      cases o <;> first | (cases hal; done) | (cases hc; done) | simp [Plain]
    obtain ⟨op, i', hcpu, hal', hne, hres⟩ := plain_alu hp _ _ _ hv
    refine .one (enc_aluMem o op i k hal hcpu _) ⟨_, exec_aluMem F.K op hne _ _, rfl, .of_mem rfl, ⟨v, ?_⟩, fun _ => ⟨?_, fun _ => ?_⟩, fun e => absurd h0 e⟩
    · rw [h.rd hx, hres]; rfl
    · rw [h.rd hx]; exact hres
    · rw [h.rd hx]; exact (aluFlags_zf _ _ _ _ _ c).trans (by rw [hres])
  · have hcpu : o.cpu = some .cmp := by
      cases o <;> first | (cases hc; done) | rfl
    refine .one (enc_aluMem o .cmp i k hal hcpu _) ⟨aluFlags F.K .cmp c.ax (F.ρ x) false { c with ip := _ }, ?_, rfl, .of_mem rfl, ⟨c.ax, rfl⟩, fun e => absurd e h0, fun _ =>
      ⟨b, (cmp_cond (cmp_flags ..) false o b hc).2, ?_⟩⟩
    · have hr : Cpu.rd { c with ip := c.ip + BitVec.ofNat 16 (modB (i ||| 3) 0 (F.off x)).length } true (.mem none .bp (BitVec.ofInt 16 (F.off x))) = F.ρ x := h.rd hx _
      simp only [exec, hr]; rfl
    · rw [hs] at hv; cases hv; rfl

/-! ## Unary operators -/

theorem Inv.neg {r : Bool} {stk : List Word} {c : Cpu} (h : Inv F r stk c) : Ex F c [0xF7, 0xD8] fun c' => Inv F r stk c' ∧ c'.ax = -c.ax := by
  refine .one (ins := .unary .neg (.reg 0)) ⟨by simp, fun _ => rfl⟩ ?_
  cases hk : F.K.negFlags
  · exact ⟨noFlags { c with ip := c.ip + BitVec.ofNat 16 2, ax := -c.ax }, by simp only [exec, unary, hk, Bool.false_eq_true, if_false]; rfl, rfl, .of_mem rfl, h.congr rfl rfl rfl rfl rfl rfl, rfl⟩
  · exact ⟨aluFlags F.K .sub 0 c.ax false { c with ip := c.ip + BitVec.ofNat 16 2, ax := -c.ax }, by simp only [exec, unary, hk, if_true]; rfl, rfl, .of_mem rfl, h.congr rfl rfl rfl rfl rfl rfl, rfl⟩

theorem Inv.not {r : Bool} {stk : List Word} {c : Cpu} (h : Inv F r stk c) : Ex F c [0xF7, 0xD0] fun c' => Inv F r stk c' ∧ c'.ax = ~~~c.ax :=
  .one (ins := .unary .not (.reg 0)) ⟨by simp, fun _ => rfl⟩ ⟨_, rfl, rfl, .of_mem rfl, h.congr rfl rfl rfl rfl rfl rfl, rfl⟩

theorem Inv.test {r : Bool} {stk : List Word} {c : Cpu} (h : Inv F r stk c) :
    Ex F c [0x21, 0xC0] fun c' => Inv F r stk c' ∧ c'.zf = some (c.ax == 0) := by
  refine .one (ins := .aluRmReg .and true (.reg 0) 0) ⟨by simp, fun _ => rfl⟩ ⟨_, exec_aluReg F.K .and (by decide) 0 _, rfl, .of_mem rfl, h.congr rfl rfl rfl rfl rfl rfl, ?_⟩
  refine (aluFlags_zf _ _ _ _ _ c).trans ?_
  show some (c.ax &&& c.ax == 0) = _
  rw [BitVec.and_self]

theorem Inv.bool {r : Bool} {stk : List Word} {c : Cpu} (h : Inv F r stk c) (cc : Fin 16) (b : Bool) (hc : c.cond cc = some b) :
    Ex F c (boolBytes cc.val) fun c' => Inv F r stk c' ∧ c'.ax = b2w b :=
  (Ex.of_at (at_bool F.K c cc b hc) fun _ hu => hu.mem).mono fun _ hu => ⟨h.upto hu, hu.reg 0⟩

theorem Inv.xchgCx {r : Bool} {stk : List Word} {c : Cpu} (h : Inv F r stk c) :
    Ex F c [0x91] fun c' => Inv F r stk c' ∧ c'.cx = c.ax ∧ c'.ax = c.cx :=
  .one (ins := .xchgAx 1) ⟨by simp, fun _ => rfl⟩ ⟨_, rfl, rfl, .of_mem rfl, h.congr rfl rfl rfl rfl rfl rfl, rfl, rfl⟩

end SccGen
