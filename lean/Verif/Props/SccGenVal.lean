import Verif.Props.SccGenOps
/-!
# Compiled expressions (C43): the code computes the value
-/
namespace SccGen
open Scc SccCode I86
open I86.Cpu hiding lo hi rd

/-! ## Constants -/

theorem ofInt32 {x : Int} (h : In16 x) : BitVec.ofInt 32 x = (BitVec.ofInt 16 x).signExtend 32 := by
  rw [BitVec.signExtend, toInt_of16 h]

theorem in16_toInt (w : Word) : In16 w.toInt := by unfold In16; have h1 := BitVec.toInt_lt (x := w); have h2 := BitVec.le_toInt w; omega

theorem fit_some {x v : Int} (h : fit x = some v) : x = v ∧ In16 v := by
  unfold fit at h; split at h <;> cases h; exact ⟨rfl, by assumption⟩

theorem intResult_fit {v : Int} (h : In16 v) : intResult v = .ok v := if_pos (by unfold In16 at h; omega)

/-- The compiler folds constants to the exact value. -/
theorem exact_fold {o : BOp} {x y v : Int} (hx : In16 x) (hy : In16 y) (h : o.exact x y = some v) : constBinOp o.tok x y = .ok v ∧ In16 v := by
  have hx' := hx
  have hy' := hy
  unfold In16 at hx' hy'
  cases o <;> first | (cases h; done) | skip
  case add => obtain ⟨rfl, h⟩ := fit_some h; exact ⟨intResult_fit h, h⟩
  case sub => obtain ⟨rfl, h⟩ := fit_some h; exact ⟨intResult_fit h, h⟩
  case mul => obtain ⟨rfl, h⟩ := fit_some h; exact ⟨intResult_fit h, h⟩
  case div =>
    replace h : (if y = 0 then none else fit (x.tdiv y)) = some v := h
    split at h
    · cases h
    · rename_i h0
      obtain ⟨rfl, h⟩ := fit_some h
      exact ⟨(if_neg h0).trans (intResult_fit h), h⟩
  case mod =>
    replace h : (if y = 0 then none else some (x.tmod y)) = some v := h
    split at h
    · cases h
    · rename_i h0
      cases h
      refine ⟨show (if y = 0 ∨ x = -(2 ^ 31) ∧ y = -1 then Except.error Prog.Err.ub else Except.ok (x.tmod y)) = .ok (x.tmod y) from if_neg (by omega), ?_⟩
      have h1 : (x.tmod y).natAbs ≤ x.natAbs := by rw [Int.natAbs_tmod]; exact Nat.mod_le _ _
      have h2 : (x.tmod y).natAbs < y.natAbs := by rw [Int.natAbs_tmod]; exact Nat.mod_lt _ (by omega)
      unfold In16; omega
  case and =>
    cases h
    refine ⟨?_, in16_toInt _⟩
    show Except.ok (BitVec.ofInt 32 x &&& BitVec.ofInt 32 y).toInt = _
    rw [ofInt32 hx, ofInt32 hy, ← BitVec.signExtend_and, BitVec.toInt_signExtend_of_le (by decide)]
  case xor =>
    cases h
    refine ⟨?_, in16_toInt _⟩
    show Except.ok (BitVec.ofInt 32 x ^^^ BitVec.ofInt 32 y).toInt = _
    rw [ofInt32 hx, ofInt32 hy, ← BitVec.signExtend_xor, BitVec.toInt_signExtend_of_le (by decide)]
  case or =>
    cases h
    refine ⟨?_, in16_toInt _⟩
    show Except.ok (BitVec.ofInt 32 x ||| BitVec.ofInt 32 y).toInt = _
    rw [ofInt32 hx, ofInt32 hy, ← BitVec.signExtend_or, BitVec.toInt_signExtend_of_le (by decide)]
  case shl =>
    replace h : (if 0 ≤ x ∧ 0 ≤ y ∧ y < 16 then fit (x * 2 ^ y.toNat) else none) = some v := h
    split at h
    · obtain ⟨h1, h⟩ := fit_some h
      refine ⟨show (if 0 ≤ y ∧ y < 32 ∧ 0 ≤ x then intResult (x * 2 ^ y.toNat) else .error .ub) = .ok v from (if_pos (by omega)).trans ?_, h⟩
      rw [h1]; exact intResult_fit h
    · cases h
  case shr =>
    replace h : (if 0 ≤ y ∧ y < 16 then some (x >>> y.toNat) else none) = some v := h
    split at h
    · cases h
      refine ⟨show (if 0 ≤ y ∧ y < 32 then Except.ok (x >>> y.toNat) else Except.error Prog.Err.ub) = .ok (x >>> y.toNat) from if_pos (by omega), ?_⟩
      rw [Int.shiftRight_eq_div_pow]
      have key : ∀ p : Int, 0 < p → In16 (x / p) := fun p hp =>
        ⟨(Int.le_ediv_iff_mul_le hp).mpr (by omega), Int.ediv_lt_of_lt_mul hp (by omega)⟩
      exact key _ (by have : (0 : Int) < 2 ^ y.toNat := Int.pow_pos (by decide); exact_mod_cast this)
    · cases h

theorem fold_un {o : UOp} {x : Int} (h : In16 x) : o.sem (BitVec.ofInt 16 x) = BitVec.ofInt 16 (o.fold x) := by
  cases o
  · exact (BitVec.ofInt_neg ..).symm
  · show b2w (BitVec.ofInt 16 x == 0) = BitVec.ofInt 16 (if x = 0 then 1 else 0)
    by_cases h0 : x = 0
    · subst h0; rfl
    · rw [if_neg h0]
      have : BitVec.ofInt 16 x ≠ 0 := fun e => h0 (by have := toInt_of16 h; rw [e] at this; exact this.symm)
      rw [beq_false_of_ne this]; rfl
  · show ~~~(BitVec.ofInt 16 x) = BitVec.ofInt 16 (-x - 1)
    rw [Int.sub_eq_add_neg, BitVec.ofInt_add, BitVec.ofInt_neg, BitVec.neg_eq_not_add]
    show _ = ~~~(BitVec.ofInt 16 x) + 1#16 + -1#16
    rw [BitVec.add_assoc]
    exact (BitVec.add_zero _).symm
  · rfl

/-- Constant expressions give no code. -/
theorem gen_cst (off : Nat → Int) (e : E) : ∀ (p r : Bool) (y : Int), Stat e → cst e = some y → gen off e p r = ⟨[], .lit y, r⟩ ∧ In16 y := by
  induction e with
  | lit v => intro p r y hs h; cases h; exact ⟨rfl, hs⟩
  | var x => intro p r y hs h; cases h
  | un o a iha =>
    intro p r y hs h
    cases ha : cst a with
    | none => rw [cst, ha] at h; cases h
    | some x =>
      rw [cst, ha] at h; cases h
      refine ⟨?_, hs.2.2 x ha⟩
      simp only [gen, ha]
  | bin o a b iha ihb =>
    intro p r y hs h
    cases ha : cst a with
    | none => simp only [cst, ha] at h; cases h
    | some x =>
      cases hb : cst b with
      | none => simp only [cst, ha, hb] at h; cases h
      | some z =>
        simp only [cst, ha, hb] at h
        refine ⟨?_, (exact_fold (iha p r x hs.1 ha).2 (ihb p r z hs.2.1 hb).2 h).2⟩
        simp only [gen, ha, hb, h]; rfl

theorem ev_cst (ρ : Nat → Word) (e : E) : ∀ (y : Int) (v : Word), Stat e → cst e = some y → ev ρ e = some v → v = BitVec.ofInt 16 y := by
  induction e with
  | lit v => intro y w hs h hv; cases h; cases hv; rfl
  | var x => intro y w hs h; cases h
  | un o a iha =>
    intro y w hs h hv
    cases ha : cst a with
    | none => rw [cst, ha] at h; cases h
    | some x =>
      rw [cst, ha] at h; cases h
      cases hea : ev ρ a with
      | none => rw [ev, hea] at hv; cases hv
      | some va =>
        rw [ev, hea] at hv; cases hv
        rw [iha x va hs.1 ha hea, fold_un (gen_cst (fun _ => 0) a false false x hs.1 ha).2]
  | bin o a b iha ihb =>
    intro y w hs h hv
    cases ha : cst a with
    | none => simp only [cst, ha] at h; cases h
    | some x =>
      cases hb : cst b with
      | none => simp only [cst, ha, hb] at h; cases h
      | some z =>
        simp only [cst, ha, hb] at h
        cases hea : ev ρ a with
        | none => rw [ev, hea] at hv; cases hv
        | some va =>
          cases heb : ev ρ b with
          | none => rw [ev, hea, heb] at hv; cases hv
          | some vb =>
            rw [ev, hea, heb] at hv
            replace hv : o.sem false va vb = some w := hv
            rw [iha x va hs.1 ha hea, ihb z vb hs.2.1 hb heb] at hv
            have hx := (gen_cst (fun _ => 0) a false false x hs.1 ha).2
            have hz := (gen_cst (fun _ => 0) b false false z hs.2.1 hb).2
            exact (fold_sem o x z y hx hz (exact_fold hx hz h).1 w hv).symm

theorem binKd_lit {o : BOp} {y : Int} (h : binKd o = .lit y) : False := by
  unfold binKd at h; split at h <;> cases h

theorem genLitL_kd (o : BOp) (x : Int) (g : G) : (genLitL o x g).kd = binKd o := by unfold genLitL; split <;> rfl
theorem genRhs_kd (off : Nat → Int) (o : BOp) (as : List Byte) (r : Bool) (g : G) : (genRhs off o as r g).kd = binKd o := by unfold genRhs; split <;> rfl

theorem toReg_kd (off : Nat → Int) (p : Bool) (g : G) : (∀ x, (toReg off p g).kd ≠ .var x) ∧ (∀ y, (toReg off p g).kd = .lit y → g.kd = .lit y) ∧
    (∀ cc, (toReg off p g).kd = .flag cc → g.kd = .flag cc) := by
  unfold toReg
  cases hk : g.kd with
  | var x => exact ⟨nofun, nofun, nofun⟩
  | lit y => simp only [hk]; exact ⟨nofun, fun _ h => h, nofun⟩
  | reg b => simp only [hk]; exact ⟨nofun, nofun, nofun⟩
  | flag cc => simp only [hk]; exact ⟨nofun, nofun, fun _ h => h⟩

/-- Other expressions are no constants for the compiler, and only tests leave their value in the flags. -/
theorem gen_kd (off : Nat → Int) (e : E) : ∀ (p r : Bool), Stat e → (cst e = none → ∀ y, (gen off e p r).kd ≠ .lit y) ∧
    ∀ cc, (gen off e p r).kd = .flag cc → isTest e = true := by
  induction e with
  | lit v => exact fun p r hs => ⟨nofun, nofun⟩
  | var x => exact fun p r hs => ⟨fun _ _ => nofun, nofun⟩
  | un o a iha =>
    intro p r hs
    cases ha : cst a with
    | some x => exact ⟨fun h => by rw [cst, ha] at h; (cases h), fun cc h => by simp only [gen, ha] at h; cases h⟩
    | none =>
      obtain ⟨i1, i2⟩ := iha p r hs.1
      obtain ⟨t1, t2, t3⟩ := toReg_kd off p (gen off a p r)
      have i1 := i1 ha
      simp only [gen, ha]
      generalize toReg off p (gen off a p r) = g at *
      refine ⟨fun _ y h => ?_, fun cc h => ?_⟩
      · cases o
        · cases h
        · unfold genUn at h
          cases hk : g.kd with
          | lit z => exact i1 z (t2 z hk)
          | var x => exact t1 x hk
          | reg b => simp only [hk] at h; cases h
          | flag cc => simp only [hk] at h; cases h
        · cases h
        · exact i1 y (t2 y h)
      · cases o
        · cases h
        · rfl
        · cases h
        · exact i2 cc (t3 cc h)
  | bin o a b iha ihb =>
    intro p r hs
    have hflag : ∀ cc, binKd o = .flag cc → isTest (.bin o a b) = true := by
      intro cc h
      unfold binKd at h
      split at h
      · cases h
      · rename_i h0; exact decide_eq_true h0
    cases ha : cst a with
    | none =>
      simp only [gen, ha, genRhs_kd]
      exact ⟨fun _ _ h => binKd_lit h, hflag⟩
    | some x =>
      cases hb : cst b with
      | none =>
        simp only [gen, ha, hb, genLitL_kd]
        exact ⟨fun _ _ h => binKd_lit h, hflag⟩
      | some y =>
        refine ⟨fun h => ?_, fun cc h => by simp only [gen, ha, hb] at h; cases h⟩
        simp only [cst, ha, hb] at h
        have := hs.2.2 x y ha hb
        rw [h] at this; cases this

/-! ## The invariant -/

variable (F : Fr)

/-- What the code `g` for an expression with the value `v` does. -/
def Good (p r : Bool) (stk : List Word) (c : Cpu) (z : Prop) (v : Word) (g : G) : Prop :=
  match g.kd with
  | .lit y => g.bs = [] ∧ g.r = r ∧ v = BitVec.ofInt 16 y ∧ In16 y
  | .var x => g.bs = [] ∧ g.r = r ∧ v = F.ρ x ∧ x ∈ F.xs
  | .reg skip => Ex F c g.bs fun c' => Inv F g.r stk c' ∧ c'.ax = v ∧ (skip = true → z → c'.zf = some (v == 0))
  | .flag cc => cc < 16 ∧ Ex F c g.bs fun c' => Inv F g.r stk c' ∧ ∃ b, c'.cond (Fin.ofNat 16 cc) = some b ∧ v = b2w b

variable {F}

theorem InvP.cs {p r : Bool} {stk : List Word} {c : Cpu} (h : InvP F p r stk c) : c.cs = F.sg := by
  cases p
  · exact Inv.cs h
  · obtain ⟨_, _, h⟩ := h; exact h.cs

theorem Good.toReg {p r : Bool} {stk : List Word} {c : Cpu} {z : Prop} {v : Word} {g : G} (h : Good F p r stk c z v g) (hi : InvP F p r stk c)
    (hl : F.L + 2 * stk.length ≤ F.T) : Good F p r stk c z v (toReg F.off p g) := by
  unfold SccGen.toReg
  cases hk : g.kd with
  | var x =>
    simp only [Good, hk] at h
    obtain ⟨hb, hr, hv, hx⟩ := h
    simp only [Good, hb, hr, List.nil_append]
    refine (hi.flush hl).append hi.cs fun c1 h1 => ⟨h1.cs, (h1.load hx).mono fun c2 hu => ⟨h1.upto hu, ?_, nofun⟩⟩
    rw [hv]; exact hu.reg 0
  | lit y => exact h
  | reg b => exact h
  | flag cc => exact h

/-- After `GetVal` the value is in AX. -/
theorem Good.toVal {p r : Bool} {stk : List Word} {c : Cpu} {z : Prop} {v : Word} {g : G} (h : Good F p r stk c z v g) (hi : InvP F p r stk c)
    (hl : F.L + 2 * stk.length ≤ F.T) (hn : ∀ y, g.kd ≠ .lit y) :
    Ex F c (toVal F.off p g).bs fun c' => Inv F (toVal F.off p g).r stk c' ∧ c'.ax = v := by
  have h1 := h.toReg hi hl
  obtain ⟨t1, t2, t3⟩ := toReg_kd F.off p g
  unfold SccGen.toVal
  cases hk : (SccGen.toReg F.off p g).kd with
  | var x => exact absurd hk (t1 x)
  | lit y => exact absurd (t2 y hk) (hn y)
  | reg b =>
    simp only [Good, hk] at h1 ⊢
    exact h1.mono fun _ h => ⟨h.1, h.2.1⟩
  | flag cc =>
    simp only [Good, hk] at h1 ⊢
    obtain ⟨hcc, h1⟩ := h1
    refine h1.append hi.cs fun c1 ⟨h2, b, hb, hv⟩ => ⟨h2.cs, ?_⟩
    have := h2.bool _ b hb
    rw [Fin.val_ofNat, Nat.mod_eq_of_lt hcc] at this
    rw [hv]; exact this

theorem good_bin {p r : Bool} {stk : List Word} {c : Cpu} {z z' : Prop} {v : Word} {o : BOp} {bs : List Byte} {r' : Bool}
    (h : Ex F c bs fun c' => Inv F r' stk c' ∧ Val o v z' c') (hz : o.cc false = 0 → z → z') : Good F p r stk c z v ⟨bs, binKd o, r'⟩ := by
  unfold Good binKd
  by_cases h0 : o.cc false = 0
  · simp only [h0, if_true]
    exact h.mono fun c' ⟨hi, hv, _⟩ => ⟨hi, (hv h0).1, fun _ z => (hv h0).2 (hz h0 z)⟩
  · simp only [h0, if_false]
    refine ⟨by cases o <;> decide, h.mono fun c' ⟨hi, _, hv⟩ => ⟨hi, hv h0⟩⟩

theorem sem_comm {o : BOp} (h : opCommutes o.tok = true) (a b : Word) : o.sem false a b = o.sem false b a := by
  cases o <;> first | (exact absurd h (by decide)) | skip
  · exact congrArg some (BitVec.add_comm ..)
  · exact congrArg some (BitVec.mul_comm ..)
  · exact congrArg some (BitVec.and_comm ..)
  · exact congrArg some (BitVec.xor_comm ..)
  · exact congrArg some (BitVec.or_comm ..)
  · simp only [BOp.sem, BOp.cmp, eq_comm]
  · simp only [BOp.sem, BOp.cmp, ne_comm]

theorem Inv.bin1 {r : Bool} {stk : List Word} {c : Cpu} (h : Inv F r stk c) (o : BOp) (v : Word) (hv : o.sem false c.ax c.cx = some v) :
    Ex F c (binBytes false o 1) fun c' => Inv F r stk c' ∧ Val o v (Plain o) c' :=
  (Ex.of_at (val_bin F.K c o 1 v (.inl rfl) hv) fun _ ⟨⟨_, _, hu⟩, _⟩ => hu.mem).mono fun _ ⟨⟨_, _, hu⟩, hv⟩ => ⟨h.upto hu, hv⟩

theorem Inv.const {r : Bool} {stk : List Word} {c : Cpu} (h : Inv F r stk c) (o : BOp) (y : Int) (v : Word) (hy : In16 y)
    (hv : o.sem false c.ax (BitVec.ofInt 16 y) = some v) (hm : o = .mul → y ≠ 0) (hd : o = .div → ∀ k : Nat, y = 2 ^ (k + 1) → 0 ≤ c.ax.toInt) :
    Ex F c (constBytes false o y) fun c' => Inv F r stk c' ∧ Val o v (o = .and ∨ o = .xor ∨ o = .or ∨ (o = .sub ∨ o = .add) ∧ SccGen.Sets F.K.incDecFlags y) c' :=
  (Ex.of_at (val_const F.K c o y v hy hv hm hd) fun _ ⟨⟨_, _, _, hu⟩, _⟩ => hu.mem).mono fun _ ⟨⟨_, _, _, hu⟩, hv⟩ => ⟨h.upto hu, hv⟩

theorem Inv.movCx {r : Bool} {stk : List Word} {c : Cpu} (h : Inv F r stk c) (y : Int) :
    Ex F c (movCx y) fun c' => Inv F r stk c' ∧ c'.ax = c.ax ∧ c'.cx = BitVec.ofInt 16 y :=
  (Ex.of_at (at_movCx F.K c y) fun _ hu => hu.mem).mono fun _ hu => ⟨h.upto hu, hu.reg 0, hu.reg 1⟩

/-- A saved left operand, the right one in AX. -/
theorem Inv.rhsReg {r : Bool} {a : Word} {stk : List Word} {c : Cpu} (h : Inv F r (a :: stk) c) (o : BOp) (v : Word) (hv : o.sem false a c.ax = some v) :
    Ex F c (rhsReg o r) fun c' => Inv F false stk c' ∧ Val o v (Plain o) c' := by
  unfold SccGen.rhsReg
  by_cases hc : opCommutes o.tok = true
  · rw [if_pos hc]
    rw [sem_comm hc] at hv
    cases r with
    | true =>
      simp only [if_true]
      obtain ⟨hb, hi⟩ := h.unBx
      refine (Ex.of_at (val_bin F.K c o 3 v ?_ (by rw [show c.reg16 3 = a from hb]; exact hv)) fun _ ⟨⟨_, _, hu⟩, _⟩ => hu.mem).mono
        fun c' ⟨⟨_, _, hu⟩, hv⟩ => ⟨hi c' ?_ ?_ ?_ ?_ ?_, hv⟩
      · cases o <;> first | (exact absurd hc (by decide)) | (exact .inr (.inl rfl)) | (exact .inr (.inr rfl))
      all_goals rw [hu]
    | false =>
      simp only [Bool.false_eq_true, if_false]
      exact h.popCx.append h.cs fun c1 ⟨h1, hcx, hax⟩ => ⟨h1.cs, h1.bin1 o v (by rw [hax, hcx]; exact hv)⟩
  · rw [if_neg hc, List.append_assoc]
    refine h.xchgCx.append h.cs fun c1 ⟨h1, hcx, _⟩ => ⟨h1.cs, ?_⟩
    cases r with
    | true =>
      simp only [if_true]
      exact h1.unXchg.append h1.cs fun c2 ⟨h2, hcx2, hax2⟩ => ⟨h2.cs, h2.bin1 o v (by rw [hax2, hcx2, hcx]; exact hv)⟩
    | false =>
      simp only [Bool.false_eq_true, if_false]
      exact h1.popAx.append h1.cs fun c2 ⟨h2, hcx2, hax2⟩ => ⟨h2.cs, h2.bin1 o v (by rw [hax2, hcx2, hcx]; exact hv)⟩

/-- The left operand in AX, the right one is a variable. -/
theorem Inv.rhsVar {r : Bool} {stk : List Word} {c : Cpu} (h : Inv F r stk c) {x : Nat} (hx : x ∈ F.xs) (o : BOp) (v : Word)
    (hv : o.sem false c.ax (F.ρ x) = some v) : Ex F c (rhsVar o (F.off x)) fun c' => Inv F r stk c' ∧ Val o v (Plain o) c' := by
  unfold SccGen.rhsVar
  cases hal : o.alu false with
  | some q =>
    obtain ⟨i, k⟩ := q
    exact (h.aluVar hx o i k hal v hv).mono fun c' ⟨⟨_, hu⟩, hv⟩ => ⟨h.upto hu, hv⟩
  | none =>
    simp only [List.append_assoc]
    refine h.xchgCx.append h.cs fun c1 ⟨h1, hcx, _⟩ => ⟨h1.cs, (h1.load hx).append h1.cs fun c2 hu => ?_⟩
    have h2 : Inv F r stk c2 := h1.upto hu
    have hcx2 : c2.cx = c.ax := (hu.reg 1).trans hcx
    have hax2 : c2.ax = F.ρ x := hu.reg 0
    refine ⟨h2.cs, ?_⟩
    by_cases hc : opCommutes o.tok = true
    · rw [if_pos hc]
      exact h2.bin1 o v (by rw [hax2, hcx2, sem_comm hc]; exact hv)
    · rw [if_neg hc]
      exact h2.xchgCx.append h2.cs fun c3 ⟨h3, hcx3, hax3⟩ => ⟨h3.cs, h3.bin1 o v (by rw [hcx3, hax3, hax2, hcx2]; exact hv)⟩

theorem cst_in16 {e : E} {y : Int} (hs : Stat e) (h : cst e = some y) : In16 y := (gen_cst (fun _ => 0) e false false y hs h).2

/-- The code for an expression computes its value. -/
theorem exec_gen (e : E) : ∀ (p r : Bool) (stk : List Word) (c : Cpu) (v : Word), Stat e → Dyn F.K.incDecFlags F.ρ e → (∀ x ∈ Vars e, x ∈ F.xs) →
    ev F.ρ e = some v → InvP F p r stk c → F.L + 2 * (stk.length + nest e) ≤ F.T → Good F p r stk c (ZfOk F.K.incDecFlags e) v (gen F.off e p r) := by
  induction e with
  | lit y => intro p r stk c v hs _ _ hv _ _; cases hv; exact ⟨rfl, rfl, rfl, hs⟩
  | var x => intro p r stk c v _ _ hx hv _ _; cases hv; exact ⟨rfl, rfl, rfl, hx x (by simp [Vars])⟩
  | un o a iha =>
    intro p r stk c v hs hd hx hv hi hl
    cases ha : cst a with
    | some y =>
      have hc : cst (.un o a) = some (o.fold y) := by simp only [cst, ha]; rfl
      obtain ⟨hg, h16⟩ := gen_cst F.off _ p r _ hs hc
      rw [hg]
      exact ⟨rfl, rfl, ev_cst F.ρ _ _ _ hs hc hv, h16⟩
    | none =>
      cases hea : ev F.ρ a with
      | none => rw [ev, hea] at hv; cases hv
      | some w =>
        rw [ev, hea] at hv
        cases hv
        have h0 := iha p r stk c w hs.1 hd.1 hx hea hi hl
        have h1 := h0.toReg hi (by omega)
        obtain ⟨t1, t2, t3⟩ := toReg_kd F.off p (gen F.off a p r)
        obtain ⟨k1, k2⟩ := gen_kd F.off a p r hs.1
        simp only [gen, ha]
        cases hk : (SccGen.toReg F.off p (gen F.off a p r)).kd with
        | var x => exact absurd hk (t1 x)
        | lit y => exact absurd (t2 y hk) (k1 ha y)
        | reg skip =>
          have h2 := h1
          simp only [Good, hk] at h2
          cases o with
          | neg => exact h2.append hi.cs fun c1 ⟨hi1, hax, _⟩ => ⟨hi1.cs, hi1.neg.mono fun c2 ⟨hi2, hax2⟩ => ⟨hi2, by rw [hax2, hax]; rfl, nofun⟩⟩
          | bnot => exact h2.append hi.cs fun c1 ⟨hi1, hax, _⟩ => ⟨hi1.cs, hi1.not.mono fun c2 ⟨hi2, hax2⟩ => ⟨hi2, by rw [hax2, hax]; rfl, nofun⟩⟩
          | plus => exact h1
          | not =>
            simp only [genUn, hk, Good]
            refine ⟨by decide, ?_⟩
            cases skip with
            | true =>
              simp only [if_true, List.append_nil]
              exact h2.mono fun c1 ⟨hi1, hax, hz⟩ => ⟨hi1, w == 0, (cond_4 c1).trans (hz rfl (hd.2 rfl ha)), rfl⟩
            | false =>
              simp only [Bool.false_eq_true, if_false]
              exact h2.append hi.cs fun c1 ⟨hi1, hax, _⟩ => ⟨hi1.cs, hi1.test.mono fun c2 ⟨hi2, hz⟩ => ⟨hi2, w == 0, (cond_4 c2).trans (by rw [hz, hax]), rfl⟩⟩
        | flag cc =>
          have ht := k2 cc (t3 cc hk)
          have h2 := h1
          simp only [Good, hk] at h2
          cases o with
          | neg => exact absurd ht (by rw [hs.2.1 (.inl rfl) ha]; decide)
          | bnot => exact absurd ht (by rw [hs.2.1 (.inr rfl) ha]; decide)
          | plus => exact h1
          | not =>
            simp only [genUn, hk, Good]
            obtain ⟨hcc, h2⟩ := h2
            have hxor : cc ^^^ 1 < 16 := Nat.xor_lt_two_pow (n := 4) hcc (by decide)
            refine ⟨hxor, h2.mono fun c1 ⟨hi1, b, hb, hw⟩ => ⟨hi1, !b, ?_, ?_⟩⟩
            · have : Fin.ofNat 16 (cc ^^^ 1) = Fin.ofNat 16 cc ^^^ 1 := by
                apply Fin.ext
                rw [xor_val, Fin.val_ofNat, Fin.val_ofNat, Nat.mod_eq_of_lt hxor, Nat.mod_eq_of_lt hcc]
              rw [this, cond_xor, hb]; rfl
            · rw [hw]; cases b <;> rfl
  | bin o a b iha ihb =>
    intro p r stk c v hs hd hx hv hi hl
    have hs' := hs
    obtain ⟨hsa, hsb, hse⟩ := hs'
    obtain ⟨hda, hdb, hdm, hdd⟩ := hd
    have hxa : ∀ x ∈ Vars a, x ∈ F.xs := fun x h => hx x (by simp [Vars, h])
    have hxb : ∀ x ∈ Vars b, x ∈ F.xs := fun x h => hx x (by simp [Vars, h])
    have hna : nest a ≤ nest (.bin o a b) := Nat.le_max_left ..
    have hnb : 1 + nest b ≤ nest (.bin o a b) := Nat.le_max_right ..
    cases hea : ev F.ρ a with
    | none => rw [ev, hea] at hv; cases hv
    | some va =>
    cases heb : ev F.ρ b with
    | none => rw [ev, hea, heb] at hv; cases hv
    | some vb =>
    have hv' : o.sem false va vb = some v := by rw [ev, hea, heb] at hv; exact hv
    cases ha : cst a with
    | some x =>
      have hvx := ev_cst F.ρ a x va hsa ha hea
      have hx16 := cst_in16 hsa ha
      cases hb : cst b with
      | some y =>
        obtain ⟨w, hw⟩ := Option.isSome_iff_exists.mp (hse x y ha hb)
        have hc : cst (.bin o a b) = some w := by simp only [cst, ha, hb, hw]
        obtain ⟨hg, h16⟩ := gen_cst F.off _ p r _ hs hc
        rw [hg]
        exact ⟨rfl, rfl, ev_cst F.ρ _ _ _ hs hc hv, h16⟩
      | none =>
        simp only [gen, ha, hb]
        have h1 := (ihb p r stk c vb hsb hdb hxb heb hi (by omega)).toVal hi (by omega) ((gen_kd F.off b p r hsb).1 hb)
        unfold genLitL
        by_cases hcm : opCommutes o.tok = true
        · rw [if_pos hcm]
          refine good_bin (h1.append hi.cs fun c1 ⟨hi1, hax⟩ => ⟨hi1.cs, hi1.const o x v hx16 ?_ ?_ ?_⟩) ?_
          · rw [hax, ← hvx, sem_comm hcm]; exact hv'
          · exact fun ho e => (hdm (by simp only [cst, ha, hb]) ho).1 (by rw [ha, e])
          · exact fun ho => absurd hcm (by rw [ho]; decide)
          · intro h0 hz
            rcases hz with hz | hz | hz | hz | hz | hz
            · exact absurd h0 hz
            · exact .inl hz
            · exact .inr (.inl hz)
            · exact .inr (.inr (.inl hz))
            · exact absurd hcm (by rw [hz.1]; decide)
            · exact .inr (.inr (.inr ⟨.inr hz.1, hz.2.1 x ha⟩))
        · rw [if_neg hcm]
          refine good_bin (z' := Plain o) (h1.append hi.cs fun c1 ⟨hi1, hax⟩ => ⟨hi1.cs, ?_⟩) ?_
          · rw [List.append_assoc]
            refine (hi1.movCx x).append hi1.cs fun c2 ⟨hi2, hax2, hcx2⟩ => ⟨hi2.cs, hi2.xchgCx.append hi2.cs fun c3 ⟨hi3, hcx3, hax3⟩ => ⟨hi3.cs, hi3.bin1 o v ?_⟩⟩
            rw [hcx3, hax3, hax2, hcx2, hax, ← hvx]; exact hv'
          · intro h0 hz
            rcases hz with hz | hz | hz | hz | hz | hz
            · exact absurd h0 hz
            · exact .inl hz
            · exact .inr (.inl hz)
            · exact .inr (.inr (.inl hz))
            · exact .inr (.inr (.inr (.inl hz.1)))
            · exact .inr (.inr (.inr (.inr hz.1)))
    | none =>
      simp only [gen, ha]
      have h1 := (iha p r stk c va hsa hda hxa hea hi (by omega)).toVal hi (by omega) ((gen_kd F.off a p r hsa).1 ha)
      generalize hga : SccGen.toVal F.off p (gen F.off a p r) = ga at h1 ⊢
      have hz1 : o.cc false = 0 → ZfOk F.K.incDecFlags (.bin o a b) → Plain o := by
        intro h0 hz
        rcases hz with hz | hz | hz | hz | hz | hz
        · exact absurd h0 hz
        · exact .inl hz
        · exact .inr (.inl hz)
        · exact .inr (.inr (.inl hz))
        · exact .inr (.inr (.inr (.inl hz.1)))
        · exact .inr (.inr (.inr (.inr hz.1)))
      have hP : ∀ c1, Inv F ga.r stk c1 → c1.ax = va → InvP F true ga.r (va :: stk) c1 := fun c1 hi1 hax => ⟨stk, by rw [hax], hi1⟩
      have hB := fun c1 hi1 hax => ihb true ga.r (va :: stk) c1 vb hsb hdb hxb heb (hP c1 hi1 hax) (by simp only [List.length_cons]; omega)
      unfold genRhs
      cases hk : (gen F.off b true ga.r).kd with
      | lit y =>
        have hb : cst b = some y := by
          cases hb : cst b with
          | none => exact absurd hk ((gen_kd F.off b true ga.r hsb).1 hb y)
          | some y' =>
            obtain ⟨hg, _⟩ := gen_cst F.off b true ga.r y' hsb hb
            rw [hg] at hk; cases hk; rfl
        have hvy := ev_cst F.ρ b y vb hsb hb heb
        refine good_bin (h1.append hi.cs fun c1 ⟨hi1, hax⟩ => ⟨hi1.cs, hi1.const o y v (cst_in16 hsb hb) ?_ ?_ ?_⟩) ?_
        · rw [hax, ← hvy]; exact hv'
        · exact fun ho e => (hdm (by simp only [cst, ha]) ho).2 (by rw [hb, e])
        · exact fun ho k hk => by rw [hax]; exact hdd ha ho k (by rw [hb, hk]) va hea
        · intro h0 hz
          rcases hz with hz | hz | hz | hz | hz | hz
          · exact absurd h0 hz
          · exact .inl hz
          · exact .inr (.inl hz)
          · exact .inr (.inr (.inl hz))
          · exact .inr (.inr (.inr ⟨.inl hz.1, hz.2 y hb⟩))
          · exact .inr (.inr (.inr ⟨.inr hz.1, hz.2.2 y hb⟩))
      | var x =>
        refine good_bin (h1.append hi.cs fun c1 ⟨hi1, hax⟩ => ?_) hz1
        have := hB c1 hi1 hax
        simp only [Good, hk] at this
        obtain ⟨_, _, hvb, hxm⟩ := this
        exact ⟨hi1.cs, hi1.rhsVar hxm o v (by rw [hax, ← hvb]; exact hv')⟩
      | reg skip =>
        simp only [List.append_assoc]
        refine good_bin (h1.append hi.cs fun c1 ⟨hi1, hax⟩ => ⟨hi1.cs, ?_⟩) hz1
        have h2 := hB c1 hi1 hax
        have e : SccGen.toVal F.off false (gen F.off b true ga.r) = gen F.off b true ga.r := by
          simp only [SccGen.toVal, SccGen.toReg, hk]
        rw [e]
        simp only [Good, hk] at h2
        exact h2.append hi1.cs fun c2 ⟨hi2, hax2, _⟩ => ⟨hi2.cs, hi2.rhsReg o v (by rw [hax2]; exact hv')⟩
      | flag cc =>
        simp only [List.append_assoc]
        refine good_bin (h1.append hi.cs fun c1 ⟨hi1, hax⟩ => ⟨hi1.cs, ?_⟩) hz1
        have h2 := hB c1 hi1 hax
        have e : SccGen.toVal F.off false (gen F.off b true ga.r) = SccGen.toVal F.off true (gen F.off b true ga.r) := by
          simp only [SccGen.toVal, SccGen.toReg, hk]
        rw [e]
        have h3 := h2.toVal (hP c1 hi1 hax) (by simp only [List.length_cons]; omega) (fun y => by rw [hk]; nofun)
        exact h3.append hi1.cs fun c2 ⟨hi2, hax2⟩ => ⟨hi2.cs, hi2.rhsReg o v (by rw [hax2]; exact hv')⟩

end SccGen
