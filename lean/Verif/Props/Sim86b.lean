import Verif.Props.Sim86a
/-!
# Properties of the simulator `sim86.c`: stack, operands, strings (C05–C07, C09)
-/
namespace Props
open Sim86 I86
variable {σ : Type}

/-! ## C05: the stack -/

/-- Push the words from left to right. -/
def pushAll : List W → M σ Unit
  | [] => pure ()
  | v :: vs => do DoPush v; pushAll vs

/-- Pop `n` words; the first one popped comes first. -/
def popAll : Nat → M σ (List W)
  | 0 => pure []
  | n + 1 => do
    let vs ← popAll n
    let v ← DoPop
    pure (vs ++ [v])

/-- The linear addresses of the `2n` bytes below SS:SP. -/
def stackBytes (s : St σ) (n : Nat) (a : Nat) : Prop :=
  ∃ i, 1 ≤ i ∧ i ≤ 2 * n ∧ a = Cpu.lin (t16 s.ss) (t16 s.sp - BitVec.ofNat 16 i)

theorem trim_eq_zext (v : W) : TRIM v = (t16 v).setWidth 32 := by
  apply BitVec.eq_of_toNat_eq
  rw [trim_toNat, BitVec.toNat_setWidth (x := t16 v)]
  have := (t16 v).isLt
  omega

theorem sub_two (x : Word) (i : Nat) : x - 2 - BitVec.ofNat 16 i = x - BitVec.ofNat 16 (i + 2) := by
  rw [BitVec.sub_sub]
  congr 1
  apply BitVec.eq_of_toNat_eq
  simp only [BitVec.toNat_add, BitVec.toNat_ofNat]
  rw [show (2 : Word).toNat = 2 from rfl]
  omega

theorem sub_ofNat_toNat (x : Word) (i : Nat) (hi : i ≤ 65535) :
    (x - BitVec.ofNat 16 i).toNat = (65536 - i + x.toNat) % 65536 := by
  rw [BitVec.toNat_sub, BitVec.toNat_ofNat, Nat.mod_eq_of_lt (show i < 2 ^ 16 by omega)]

/-- Any pushes followed by as many pops. -/
theorem C05_lifo (vs : List W) (s : St σ) (hn : vs.length ≤ 32767)
    (hsp : -2 ^ 30 + 2 * (vs.length : Int) ≤ s.sp.toInt ∧ s.sp.toInt < 2 ^ 30) :
    ∃ s', (do pushAll vs; popAll vs.length) s = .ok (vs.map TRIM).reverse s' ∧ 
      s' = { s with mem := s'.mem } ∧
      ∀ a < 2 ^ 20, ¬ stackBytes s vs.length a → s'.mem.get a = s.mem.get a := by
  suffices h : wp (do pushAll vs; popAll vs.length) s fun r s' => r = (vs.map TRIM).reverse ∧
      s' = { s with mem := s'.mem } ∧
      ∀ a < 2 ^ 20, ¬ stackBytes s vs.length a → s'.mem.get a = s.mem.get a by
    obtain ⟨r, s', e, rfl, h⟩ := h
    exact ⟨s', e, h⟩
  induction vs generalizing s with
  | nil => exact ⟨_, _, rfl, rfl, rfl, fun _ _ _ => rfl⟩
  | cons v vs ih =>
    simp only [List.length_cons] at hn hsp ih ⊢
    have h2 : (-2 : W).toInt = -2 := rfl
    have hsub := toInt_add_eq (a := s.sp) (b := -2) (by omega) (by omega)
    simp only [pushAll, popAll, wp_bind]
    refine wp_mono (wp_DoPush v (by omega)) ?_
    rintro ⟨⟩ s1 ⟨hs1, ha1⟩
    have hsp1 : s1.sp = s.sp + -2 := by rw [hs1]
    have hss1 : s1.ss = s.ss := by rw [hs1]
    have hih := ih s1 (by omega) (by rw [hsp1, hsub]; omega)
    rw [wp_bind] at hih
    refine wp_mono hih ?_
    rintro ⟨⟩ s2 h2'
    refine wp_mono h2' ?_
    rintro r s3 ⟨rfl, hs3, hfr⟩
    have hsp3 : s3.sp = s.sp + -2 := by rw [hs3]; exact hsp1
    have hss3 : s3.ss = s.ss := by rw [hs3]; exact hss1
    have ht : t16 s1.sp = t16 s.sp - 2 := by
      rw [hsp1, t16_add, show t16 (-2 : W) = -2 from rfl, BitVec.sub_eq_add_neg]
    rw [wp_DoPop (by rw [hsp3]; omega), wp_pure]
    have hne : ∀ k : Nat, k < 2 → ∀ i, 1 ≤ i → i ≤ 2 * vs.length →
        Cpu.lin (t16 s1.ss) (t16 s1.sp + BitVec.ofNat 16 k) ≠ Cpu.lin (t16 s1.ss) (t16 s1.sp - BitVec.ofNat 16 i) := by
      intro k hk i hi1 hi2 he
      have he := congrArg BitVec.toNat (Cpu.lin_inj he)
      rw [sub_ofNat_toNat _ _ (by omega), BitVec.toNat_add, BitVec.toNat_ofNat] at he
      have := (t16 s1.sp).isLt
      omega
    have hsame : ∀ k : Nat, k < 2 → s3.mem.get (Cpu.lin (t16 s1.ss) (t16 s1.sp + BitVec.ofNat 16 k)) =
        s1.mem.get (Cpu.lin (t16 s1.ss) (t16 s1.sp + BitVec.ofNat 16 k)) := by
      intro k hk
      apply hfr _ (Cpu.lin_lt _ _)
      rintro ⟨i, h1, h2, h3⟩
      exact hne k hk i h1 h2 h3
    have hpop : (abs s3 F0).pop.1 = t16 v := by
      have e3 : (abs s3 F0).pop.1 = (abs s1 F0).rd16 (t16 s1.ss) (t16 s1.sp) := by
        have a0 := hsame 0 (by omega)
        have a1 := hsame 1 (by omega)
        rw [Cpu.ofNat_zero_add] at a0
        change (abs s3 F0).rd16 (t16 s3.ss) (t16 s3.sp) = _
        rw [hss3, hsp3, ← hss1, ← hsp1]
        unfold Cpu.rd16 Cpu.rd8
        change (s3.mem.get _ ++ s3.mem.get _ : BitVec 16) = (s1.mem.get _ ++ s1.mem.get _ : BitVec 16)
        rw [a0]
        exact congrArg (· ++ _) a1
      rw [e3, ha1 F0, hss1, ht]
      exact Cpu.rd16_wr16_self _ _ _ _
    refine ⟨?_, ?_, ?_⟩
    · rw [hpop, List.map_cons, List.reverse_cons, trim_eq_zext]
    · have e0 : s.sp + -2 + 2 = s.sp := by rw [BitVec.add_assoc]; exact BitVec.add_zero _
      obtain ⟨m3, hm3⟩ : ∃ m, s3 = { s1 with mem := m } := ⟨_, hs3⟩
      obtain ⟨m1, hm1⟩ : ∃ m, s1 = { s with sp := s.sp + -2, mem := m } := ⟨_, hs1⟩
      rw [setReg_SP, hsp3, e0]
      clear hs3 hs1
      subst hm3
      subst hm1
      rfl
    · intro a hal hns
      change s3.mem.get a = _
      have hpush : (abs s F0).push (t16 v) =
        ({ abs s F0 with sp := t16 s.sp - 2 } : Cpu).wr16 (t16 s.ss) (t16 s.sp - 2) (t16 v) := rfl
      rw [hfr a hal, show s1.mem = (abs s1 F0).mem from rfl, ha1 F0, hpush]
      · refine Cpu.get_wr16_ne _ (seg := t16 s.ss) (off := t16 s.sp - 2) (t16 v) hal ?_ ?_
        · intro he
          exact hns ⟨2, by omega, by omega, he⟩
        · intro he
          refine hns ⟨1, by omega, by omega, he.trans (congrArg (Cpu.lin (t16 s.ss)) ?_)⟩
          apply BitVec.eq_of_toNat_eq
          rw [sub_ofNat_toNat _ _ (by omega), BitVec.toNat_add, show (2 : Word) = BitVec.ofNat 16 2 from rfl,
            sub_ofNat_toNat _ _ (by omega), show (1 : Word).toNat = 1 from rfl]
          omega
      · rintro ⟨i, h1, h2, h3⟩
        refine hns ⟨i + 2, by omega, by omega, ?_⟩
        rw [h3, hss1, ht, sub_two]

/-- Three words across the wrap-around at SP = 2. -/
example (s : St σ) (h : s.sp = 2) : ∃ s', (do pushAll [1, 0x12345, -1]; popAll 3) s = .ok [0xffff, 0x2345, 1] s' := by
  obtain ⟨s', e, -⟩ := C05_lifo [1, 0x12345, -1] s (by decide) (by rw [h]; decide)
  exact ⟨s', e⟩

theorem linear_lt (seg off : W) : linear seg off < 2 ^ 20 := Nat.mod_lt _ (by decide)

/-- A host integer far from overflow. -/
def Mid (x : W) : Prop := -2 ^ 28 ≤ x.toInt ∧ x.toInt < 2 ^ 28

theorem safe_iff {s : St σ} : Safe s ↔ Mid s.ax ∧ Mid s.cx ∧ Mid s.dx ∧ Mid s.bx ∧ Mid s.sp ∧ Mid s.bp ∧ Mid s.si ∧
    Mid s.di ∧ Mid s.ip := by
  constructor
  · intro h
    exact ⟨h.reg 0, h.reg 1, h.reg 2, h.reg 3, h.reg 4, h.reg 5, h.reg 6, h.reg 7, h.ip⟩
  · rintro ⟨h0, h1, h2, h3, h4, h5, h6, h7, h8⟩
    refine ⟨fun r => ?_, h8⟩
    match r with
    | 0 => exact h0
    | 1 => exact h1
    | 2 => exact h2
    | 3 => exact h3
    | 4 => exact h4
    | 5 => exact h5
    | 6 => exact h6
    | 7 => exact h7

/-- The first byte of the instruction, when it is not a prefix. -/
theorem wp_step_plain (H : Host σ) {s : St σ} (hs : Safe s) {op : Byte} {rest : List Byte} (hp : isPrefix op.toNat = false)
    (ha : Ahead s (op :: rest) s.ip) (Q) :
    wp (step H) s Q ↔ wp (execInst H 0 op) (dec s 1 none 0 none true) Q := by
  have ha : Ahead s (op :: rest) (s.ip + BitVec.ofNat 32 0) := by simpa using ha
  unfold step
  rw [wp_bind, wp_modS]
  have e0 : ({ s with modrm := none, addr := 0, dsize := true, seg := none } : St σ) = dec s 0 none 0 none true := by
    simp [dec]
  rw [e0, show loopFuel = 2 ^ 32 - 1 + 1 from rfl, wp_dispatch_exec H hs (by omega) hp ha]

theorem pop_eq (d : St σ) : (abs d F0).pop.1 =
    d.mem.get (Cpu.lin (t16 d.ss) (t16 d.sp + 1)) ++ d.mem.get (Cpu.lin (t16 d.ss) (t16 d.sp)) := rfl

theorem rd16_def (c : Cpu) (a b : Word) :
    c.rd16 a b = c.mem.get (Cpu.lin a (b + 1)) ++ c.mem.get (Cpu.lin a b) := rfl

theorem dec_ss (s : St σ) (k m a sg dz) : (dec s k m a sg dz).ss = s.ss := rfl
theorem dec_mem (s : St σ) (k m a sg dz) : (dec s k m a sg dz).mem = s.mem := rfl

theorem upd_ss_mem {s s2 : St σ} {a : W} {m : Mem 20} {c : W} (h : ({ s with sp := a, mem := m, ip := c } : St σ) = s2) :
    s2.ss = s.ss ∧ s2.mem = m := by
  subst h
  exact ⟨rfl, rfl⟩

theorem upd_abs {s s2 : St σ} {k k' : Nat} {a c v x : W} {m : Mem 20}
    (h : ({ dec s k none 0 none true with sp := a, mem := m, ip := c } : St σ) = s2) (F : Flags4) :
    abs ({ dec s2 k' none 0 none true with sp := x, ip := v } : St σ) F =
      { abs s F with ip := t16 v, sp := t16 x, mem := m } := by
  subst h
  rfl

theorem execInst_call (H : Host σ) :
    execInst H 0 0xe8#8 = (do let rel ← Imm16; DoPush (← getS).ip; addIp rel) := rfl

theorem execInst_ret (H : Host σ) :
    execInst H 0 0xc3#8 = (do let v ← DoPop; modS fun s => { s with ip := v }) := rfl

/-- A near CALL to a RET resumes after the CALL with SP restored, whatever SP is, provided the pushed return address
does not overwrite the RET. -/
theorem C05_call_ret (H : Host σ) (s : St σ) (hs : Safe s) (hip : -2 ^ 27 ≤ s.ip.toInt ∧ s.ip.toInt < 2 ^ 27)
    (hsp : -2 ^ 27 ≤ s.sp.toInt) (lo hi : Byte)
    (h0 : s.mem.get (linear s.cs s.ip) = 0xe8) (h1 : s.mem.get (linear s.cs (s.ip + 1)) = lo)
    (h2 : s.mem.get (linear s.cs (s.ip + 1 + 1)) = hi)
    (h3 : s.mem.get (linear s.cs (s.ip + 3 + (word lo hi).setWidth 32)) = 0xc3)
    (h4 : ¬ stackBytes s 1 (linear s.cs (s.ip + 3 + (word lo hi).setWidth 32))) :
    ∃ s', run H 2 s = .ok () s' ∧ t16 s'.ip = t16 s.ip + 3 ∧ s'.sp = s.sp ∧
      (∀ F, abs s' F = { abs s F with ip := t16 s.ip + 3, mem := s'.mem }) ∧
      ∀ a < 2 ^ 20, ¬ stackBytes s 1 a → s'.mem.get a = s.mem.get a := by
  suffices h : wp (run H 2) s fun _ s' => t16 s'.ip = t16 s.ip + 3 ∧ s'.sp = s.sp ∧
      (∀ F, abs s' F = { abs s F with ip := t16 s.ip + 3, mem := s'.mem }) ∧
      ∀ a < 2 ^ 20, ¬ stackBytes s 1 a → s'.mem.get a = s.mem.get a by
    obtain ⟨⟨⟩, s', e, h⟩ := h
    exact ⟨s', e, h⟩
  have hspb := hs.reg 4
  change -2 ^ 28 ≤ s.sp.toInt ∧ s.sp.toInt < 2 ^ 28 at hspb
  have hm2 : (-2 : W).toInt = -2 := rfl
  have hsub := toInt_add_eq (a := s.sp) (b := -2) (by omega) (by omega)
  have hrel := zext_toInt (n := 16) (by decide) (word lo hi)
  have hrl := (word lo hi).isLt
  have hip3 := dec_ip hs (k := 3) (by omega)
  have hip3r := toInt_add_eq (a := s.ip + BitVec.ofNat 32 3) (b := (word lo hi).setWidth 32) (by omega) (by omega)
  have ha : Ahead s [0xe8#8, lo, hi] s.ip :=
    ⟨by rw [linear_eq, h0]; rfl, by rw [linear_eq, h1], by rw [linear_eq, h2], trivial⟩
  have ha1 : Ahead s [lo, hi] (s.ip + BitVec.ofNat 32 1) := ha.2
  unfold run
  rw [wp_bind, wp_step_plain H hs (by decide) ha]
  rw [execInst_call]
  rw [wp_bind, wp_Imm16 hs (by omega) ha1, wp_bind, wp_getS, wp_bind]
  refine wp_mono (wp_DoPush (s := dec s 3 none 0 none true) _ (by change -2 ^ 30 ≤ s.sp.toInt ∧ s.sp.toInt < 2 ^ 30; omega)) ?_
  rintro ⟨⟩ s1 ⟨hs1, hab1⟩
  obtain ⟨m1, hm1⟩ : ∃ m, s1 = { dec s 3 none 0 none true with sp := s.sp + -2, mem := m } := ⟨_, hs1⟩
  have hmem1 : m1 = ((abs (dec s 3 none 0 none true) F0).push (t16 (s.ip + BitVec.ofNat 32 3))).mem := by
    have := congrArg Cpu.mem (hab1 F0)
    rw [hm1] at this
    exact this
  clear hs1 hab1
  subst hm1
  unfold addIp
  rw [wp_bind, wp_getS, wp_bind]
  change wp (addI (s.ip + BitVec.ofNat 32 3) ((word lo hi).setWidth 32)) _ _
  rw [wp_addI _ _ (by omega) (by omega), wp_modS]
  change wp (run H (0 + 1)) { dec s 3 none 0 none true with
    sp := s.sp + -2, mem := m1, ip := s.ip + BitVec.ofNat 32 3 + (word lo hi).setWidth 32 } _
  have hpush : (abs (dec s 3 none 0 none true) F0).push (t16 (s.ip + BitVec.ofNat 32 3)) =
      ({ abs (dec s 3 none 0 none true) F0 with sp := t16 s.sp - 2 } : Cpu).wr16 (t16 s.ss) (t16 s.sp - 2)
        (t16 (s.ip + BitVec.ofNat 32 3)) := rfl
  have hfr : ∀ a < 2 ^ 20, ¬ stackBytes s 1 a → m1.get a = s.mem.get a := by
    intro a hal hns
    rw [hmem1, hpush]
    refine Cpu.get_wr16_ne _ (seg := t16 s.ss) (off := t16 s.sp - 2) _ hal ?_ ?_
    · intro he
      exact hns ⟨2, by omega, by omega, he⟩
    · intro he
      refine hns ⟨1, by omega, by omega, he.trans (congrArg (Cpu.lin (t16 s.ss)) ?_)⟩
      apply BitVec.eq_of_toNat_eq
      rw [sub_ofNat_toNat _ _ (by omega), BitVec.toNat_add, show (2 : Word) = BitVec.ofNat 16 2 from rfl,
        sub_ofNat_toNat _ _ (by omega), show (1 : Word).toNat = 1 from rfl]
      omega
  generalize hs2 : ({ dec s 3 none 0 none true with
    sp := s.sp + -2, mem := m1, ip := s.ip + BitVec.ofNat 32 3 + (word lo hi).setWidth 32 } : St σ) = s2
  have hsafe2 : Safe s2 := by
    subst hs2
    obtain ⟨b0, b1, b2, b3, b4, b5, b6, b7, b8⟩ := safe_iff.mp hs
    refine safe_iff.mpr ⟨b0, b1, b2, b3, ?_, b5, b6, b7, ?_⟩
    · change -2 ^ 28 ≤ (s.sp + -2).toInt ∧ (s.sp + -2).toInt < 2 ^ 28
      omega
    · change -2 ^ 28 ≤ BitVec.toInt (s.ip + BitVec.ofNat 32 3 + (word lo hi).setWidth 32) ∧
        BitVec.toInt (s.ip + BitVec.ofNat 32 3 + (word lo hi).setWidth 32) < 2 ^ 28
      omega
  have ha2 : Ahead s2 [0xc3#8] s2.ip := by
    subst hs2
    refine ⟨?_, trivial⟩
    change 0xc3#8 = m1.get (MAKEADDR s.cs (s.ip + 3 + (word lo hi).setWidth 32)).toNat
    rw [linear_eq, hfr _ (linear_lt _ _) h4, h3]
    rfl
  unfold run
  rw [wp_bind, wp_step_plain H hsafe2 (by decide) ha2]
  rw [execInst_ret]
  have hsp2 : (dec s2 1 none 0 none true).sp = s.sp + -2 := by subst hs2; rfl
  rw [wp_bind, wp_DoPop (by rw [hsp2]; omega), wp_modS]
  have e0 : s.sp + -2 + 2 = s.sp := by rw [BitVec.add_assoc]; exact BitVec.add_zero _
  have htsp : t16 (s.sp + -2) = t16 s.sp - 2 := by
    rw [t16_add, show t16 (-2 : W) = -2 from rfl, BitVec.sub_eq_add_neg]
  have hss2 : (dec s2 1 none 0 none true).ss = s.ss := by
    rw [dec_ss, (upd_ss_mem hs2).1, dec_ss]
  have hmm2 : (dec s2 1 none 0 none true).mem = m1 := by
    rw [dec_mem, (upd_ss_mem hs2).2]
  have hpop : (abs (dec s2 1 none 0 none true) F0).pop.1 = t16 s.ip + 3 := by
    rw [pop_eq, hsp2, hss2, hmm2, htsp, hmem1, hpush]
    rw [← rd16_def, Cpu.rd16_wr16_self, t16_add, show t16 (BitVec.ofNat 32 3) = (3 : Word) from rfl]
  rw [setReg_SP, hsp2, hpop, e0]
  change wp (pure ()) _ _
  rw [wp_pure]
  refine ⟨t16_zext _, rfl, fun F => ?_, ?_⟩
  · refine (upd_abs (k' := 1) (x := s.sp) hs2 F).trans ?_
    rw [t16_zext, ← (upd_ss_mem hs2).2]
    rfl
  · intro a h5 h6
    refine Eq.trans ?_ (hfr a h5 h6)
    exact congrArg (·.get a) (upd_ss_mem hs2).2

/-- `C05_call_ret` applies, e.g., to `CALL +10` at CS:0 with SP = 0 (wrapping). -/
example : ∃ s' : St Unit, run nullHost 2 (codeState [0xe8, 0x0a, 0, 0, 0, 0, 0, 0, 0, 0, 0, 0, 0, 0xc3]) = .ok () s' ∧
    t16 s'.ip = 3 := by
  obtain ⟨s', h1, h2, -⟩ := C05_call_ret nullHost (codeState [0xe8, 0x0a, 0, 0, 0, 0, 0, 0, 0, 0, 0, 0, 0, 0xc3])
    ⟨by decide +kernel, by decide +kernel⟩ (by decide +kernel) (by decide +kernel) 0x0a 0
    (by decide +kernel) (by decide +kernel) (by decide +kernel) (by decide +kernel) (by
      rintro ⟨i, h1, h2, h3⟩
      have : i = 1 ∨ i = 2 := by omega
      rcases this with rfl | rfl <;> exact absurd h3 (by decide +kernel))
  exact ⟨s', h1, h2⟩

end Props
